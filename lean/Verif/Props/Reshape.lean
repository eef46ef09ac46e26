import Verif.ReshapeMain
import Verif.WorldLemmas

/-!
# Properties of the reshapes (C22 - C30)

`Redistribution` (SpecMem.lean) is the specification of a valid pair of distributions; `Distributed` says that every
rank holds its part of the global arrays.  Helper lemmas are in `Verif/GoodV.lean`, `GoodA.lean`, `GoodP.lean` and
`ReshapeMain.lean`.
-/

namespace Verif
variable {α : Type}

/-! ## An example used below: 3 ranks, the world 4 x 2 x 3, slabs in two directions and two storage orders -/

def exA : List Box := [⟨⟨0, 0, 0⟩, ⟨1, 1, 2⟩, ⟨0, 1, 2⟩⟩, ⟨⟨2, 0, 0⟩, ⟨2, 1, 2⟩, ⟨0, 1, 2⟩⟩, ⟨⟨3, 0, 0⟩, ⟨3, 1, 2⟩, ⟨0, 1, 2⟩⟩]
def exB : List Box := [⟨⟨0, 0, 0⟩, ⟨3, 1, 0⟩, ⟨2, 0, 1⟩⟩, ⟨⟨0, 0, 1⟩, ⟨3, 1, 1⟩, ⟨2, 0, 1⟩⟩, ⟨⟨0, 0, 2⟩, ⟨3, 1, 2⟩, ⟨2, 0, 1⟩⟩]
def exW : Box := ⟨⟨0, 0, 0⟩, ⟨3, 1, 2⟩, ⟨0, 1, 2⟩⟩

theorem exA_tiles : Tiles exA exW := ((worldComplete_iff_tiles (w := exW) (by decide)).1 (by decide)).2
theorem exB_tiles : Tiles exB exW :=
  ((worldComplete_iff_tiles (boxes := exB) (w := ⟨⟨0, 0, 0⟩, ⟨3, 1, 2⟩, ⟨0, 1, 2⟩⟩) (by decide)).1 (by decide)).2

theorem ex_redistribution : Redistribution exA exB exW :=
  ⟨by decide, rfl, exA_tiles, exB_tiles,
    ⟨⟨0, 1, 2⟩, by decide, fun b hb _ => (by decide : ∀ b ∈ exA, b.order = ⟨0, 1, 2⟩) b hb, fun b hb => by
      simp only [exA, List.head?_cons, Option.some.injEq] at hb; rw [← hb], by decide⟩,
    ⟨⟨2, 0, 1⟩, by decide, fun b hb _ => (by decide : ∀ b ∈ exB, b.order = ⟨2, 0, 1⟩) b hb, fun b hb => by
      simp only [exB, List.head?_cons, Option.some.injEq] at hb; rw [← hb], by decide⟩⟩

/-! ## C22 -/

/-- The number of entries that a rank sends to rank `r`. -/
def sentTo (job : Job) (r : Nat) : Int := ((job.sends.filter fun m => decide (m.peer = r)).map Msg.len).sum

/-- The number of entries that a rank expects from rank `s`. -/
def expectedFrom (job : Job) (s : Nat) : Int := ((job.recvs.filter fun m => decide (m.peer = s)).map Msg.len).sum

theorem sum_peer {l : List Msg} (hn : (l.map Msg.peer).Nodup) {m : Msg} (hm : m ∈ l) :
    ((l.filter fun x => decide (x.peer = m.peer)).map Msg.len).sum = m.len := by
  rw [filter_peer_singleton hn hm]; simp

theorem sum_peer_len {l : List Msg} (hn : (l.map Msg.peer).Nodup) {m : Msg} (hm : m ∈ l) {r : Nat} (hr : m.peer = r) {n : Int}
    (hs : m.len = n) : ((l.filter fun x => decide (x.peer = r)).map Msg.len).sum = n := by
  subst hr hs
  exact sum_peer hn hm

theorem sum_no_peer {l : List Msg} {r : Nat} (h : ∀ m ∈ l, m.peer ≠ r) :
    ((l.filter fun x => decide (x.peer = r)).map Msg.len).sum = 0 := by
  rw [List.filter_eq_nil_iff.2 (by simpa using h)]; rfl

theorem cnt_card {bin bout : List Box} {s r : Nat} {a b : Box} (ha : bin[s]? = some a) (hb : bout[r]? = some b) :
    cnt bin bout s r = (a.points ∩ b.points).card := by
  have e1 := boxAt_get (List.getElem?_eq_some_iff.1 ha).1
  have e2 := boxAt_get (List.getElem?_eq_some_iff.1 hb).1
  rw [ha] at e1; rw [hb] at e2
  unfold cnt msgCount
  rw [← Option.some.inj e1, ← Option.some.inj e2, Box.count_eq_card]
  congr 2
  ext p
  simp [Box.mem_collide]

variable {bin bout : List Box} {w : Box}

/-- **C22** for alltoallv: any lists of boxes, any two ranks. -/
theorem C22_alltoallv (hl : bout.length = bin.length) (direct : Bool) (stride nb : Nat) {s r : Nat} {a b : Box}
    (ha : bin[s]? = some a) (hb : bout[r]? = some b) (done done' : List Nat) :
    ∃ os or, makeAllToAllv direct bin bout s = .ok os ∧ makeAllToAllv direct bin bout r = .ok or ∧
      sentTo (Shaper.job stride nb done (os.map (.alltoallv direct))) r = nb * (a.points ∩ b.points).card ∧
      expectedFrom (Shaper.job stride nb done' (or.map (.alltoallv direct))) s = nb * (a.points ∩ b.points).card := by
  have hs := (List.getElem?_eq_some_iff.1 ha).1
  have hr : r < bin.length := by rw [← hl]; exact (List.getElem?_eq_some_iff.1 hb).1
  obtain ⟨g, hg, hobj⟩ := groupsV (direct := direct) hl
  refine ⟨_, _, hobj s hs, hobj r hr, ?_⟩
  have hj : ∀ (q : Nat) (d : List Nat), Shaper.job stride nb d ((objV direct bin bout g q).map (.alltoallv direct)) =
      jobV direct bin bout g stride nb q := by
    intro q d
    unfold jobV
    cases objV direct bin bout g q <;> rfl
  rw [hj, hj, jobV_eq, jobV_eq, ← cnt_card ha hb]
  unfold sentTo expectedFrom
  dsimp only
  have hzero : r ∉ g s → cnt bin bout s r = 0 := by
    intro hn
    have h0 := cnt_nonneg (bin := bin) (bout := bout) s r
    by_contra hc
    exact hn (hg.nbr s r hs (cnt_pos_adj hl hs hr (by omega)))
  constructor
  · by_cases hrs : r ∈ g s
    · have hm := (mem_ioMsgs (send_nodup hl hs) (fun q x y => ⟨q, x * nb, y * nb⟩) (g s) 0 (hg.nodup hs) _).2 ⟨r, hrs, rfl⟩
      have hn := ioMsgs_peers (entries := sendEntries bout s (boxAt bin s)) (fun q x y => ⟨q, x * nb, y * nb⟩)
        (fun _ _ _ => rfl) (g s) 0
      have := sum_peer (by rw [hn]; exact hg.nodup hs) hm
      dsimp only at this
      rw [this, lookSize_send hl hs hr, mul_comm]
    · rw [hzero hrs, sum_no_peer]
      · simp
      · intro m hm
        obtain ⟨q, hq, rfl⟩ := (mem_ioMsgs (send_nodup hl hs) (fun q x y => ⟨q, x * nb, y * nb⟩) (g s) 0
          (hg.nodup hs) _).1 hm
        rintro rfl; exact hrs hq
  · by_cases hrs : r ∈ g s
    · have hsr := hg.symm hs hrs
      have hm := (mem_ioMsgs (recv_nodup (direct := direct) (bout := bout) hr)
        (fun q x y => ⟨q, nb * (boxAt bin r).count + x * nb, y * nb⟩) (g r) 0 (hg.nodup hr) _).2 ⟨s, hsr, rfl⟩
      have hn := ioMsgs_peers (entries := recvEntries direct bin r (boxAt bout r))
        (fun q x y => ⟨q, nb * (boxAt bin r).count + x * nb, y * nb⟩)
        (fun _ _ _ => rfl) (g r) 0
      have := sum_peer (by rw [hn]; exact hg.nodup hr) hm
      dsimp only at this
      rw [this, lookSize_recv hl hr hs, mul_comm]
    · rw [hzero hrs, sum_no_peer]
      · simp
      · intro m hm
        obtain ⟨q, hq, rfl⟩ := (mem_ioMsgs (recv_nodup hr) (fun q x y => ⟨q, nb * (boxAt bin r).count + x * nb, y * nb⟩)
          (g r) 0 (hg.nodup hr) _).1 hm
        rintro rfl; exact hrs (hg.symm hr hq)

/-- **C22** for the point-to-point algorithms: any lists of boxes, any two different ranks; a rank sends no message to
itself. -/
theorem C22_pointtopoint (hl : bout.length = bin.length) (direct : Bool) (stride nb : Nat) {s r : Nat} {a b : Box}
    (ha : bin[s]? = some a) (hb : bout[r]? = some b) (done done' : List Nat) :
    ∃ os or, makePointToPoint direct bin bout s = .ok os ∧ makePointToPoint direct bin bout r = .ok or ∧
      sentTo (os.job direct stride nb done) r = (if s = r then (0 : Int) else nb * ((a.points ∩ b.points).card : Int)) ∧
      expectedFrom (or.job direct stride nb done') s = (if s = r then (0 : Int) else nb * ((a.points ∩ b.points).card : Int)) := by
  have hs := (List.getElem?_eq_some_iff.1 ha).1
  have hr : r < bin.length := by rw [← hl]; exact (List.getElem?_eq_some_iff.1 hb).1
  refine ⟨_, _, makeP hl hs, makeP hl hr, ?_⟩
  rw [← cnt_card ha hb]
  have h0 := cnt_nonneg (bin := bin) (bout := bout) s r
  unfold sentTo expectedFrom PointToPoint.job objP
  dsimp only
  constructor
  · have hnd : (((dropSelf (decide (0 < cnt bin bout s s)) (sendEntries bout s (boxAt bin s)))).map Entry.proc).Nodup :=
      dropSelf_nodup (send_nodup hl hs)
    have hf : ∀ e ∈ dropSelf (decide (0 < cnt bin bout s s)) (sendEntries bout s (boxAt bin s)), cnt bin bout s e.proc = e.size := by
      intro e he
      obtain ⟨q, -, -, -, rfl⟩ := (mem_dropSend hl hs).1 he
      rw [sendE_size, sendE_proc]
    have hmem := mem_p2pSends nb (fun q => cnt bin bout s q) _ 0 hnd hf
    have hpeers := p2pSends_peers nb (dropSelf (decide (0 < cnt bin bout s s)) (sendEntries bout s (boxAt bin s))) 0
    by_cases hrs : s ≠ r ∧ 0 < cnt bin bout s r
    · rw [if_neg hrs.1]
      exact sum_peer_len (by rw [hpeers]; exact hnd)
        ((hmem _).2 ⟨_, (mem_dropSend hl hs).2 ⟨r, hr, hrs.1.symm, hrs.2, rfl⟩, rfl⟩) (sendE_proc (bin := bin) (bout := bout) s r) (by rw [sendE_size])
    · rw [sum_no_peer]
      · split
        · rfl
        · rename_i hne
          rw [show cnt bin bout s r = 0 by have : ¬ 0 < cnt bin bout s r := fun h => hrs ⟨hne, h⟩
                                           omega]
          simp
      · intro m hm
        obtain ⟨e, he, rfl⟩ := (hmem m).1 hm
        obtain ⟨q, -, hqs, hc, rfl⟩ := (mem_dropSend hl hs).1 he
        dsimp only [sendE_proc]
        rintro rfl
        exact hrs ⟨hqs.symm, hc⟩
  · have hnd : (((dropSelf (decide (0 < cnt bin bout r r)) (recvEntries direct bin r (boxAt bout r)))).map Entry.proc).Nodup :=
      dropSelf_nodup (recv_nodup hr)
    have hf : ∀ e ∈ recvEntries direct bin r (boxAt bout r), cnt bin bout e.proc r = e.size := by
      intro e he
      obtain ⟨q, -, -, rfl⟩ := (mem_recvEntries hl hr).1 he
      rw [recvE_size, recvE_proc]
    have hloc := recvLocs_get (fun q => cnt bin bout q r) (recvEntries direct bin r (boxAt bout r)) 0 (recv_nodup hr) hf
    have hmem : ∀ m, m ∈ ((dropSelf (decide (0 < cnt bin bout r r)) (recvEntries direct bin r (boxAt bout r))).zip
        (recvLocs ((recvEntries direct bin r (boxAt bout r)).map Entry.size) 0)).map
          (fun m => (⟨m.1.proc, nb * (boxAt bin r).count + nb * m.2, nb * m.1.size⟩ : Msg)) ↔
        ∃ e ∈ dropSelf (decide (0 < cnt bin bout r r)) (recvEntries direct bin r (boxAt bout r)), m =
          ⟨e.proc, nb * (boxAt bin r).count + nb * (0 + seg (fun q => cnt bin bout q r)
            ((recvEntries direct bin r (boxAt bout r)).map Entry.proc) e.proc), nb * e.size⟩ := by
      intro m
      simp only [List.mem_map, Prod.exists]
      constructor
      · rintro ⟨e, l, hel, rfl⟩
        obtain ⟨i, hi⟩ := List.mem_iff_getElem?.1 hel
        rw [List.getElem?_zip_eq_some] at hi
        have := hloc i e (dropSelf_prefix _ _ hi.1)
        rw [hi.2] at this
        have hl' : l = _ := Option.some.inj this
        exact ⟨e, (List.mem_of_getElem? hi.1), by rw [hl']⟩
      · rintro ⟨e, he, rfl⟩
        obtain ⟨i, hi⟩ := List.mem_iff_getElem?.1 he
        refine ⟨e, _, List.mem_of_getElem? (List.getElem?_zip_eq_some.2 ⟨hi, hloc i e (dropSelf_prefix _ _ hi)⟩), rfl⟩
    have hpeers : (((dropSelf (decide (0 < cnt bin bout r r)) (recvEntries direct bin r (boxAt bout r))).zip
        (recvLocs ((recvEntries direct bin r (boxAt bout r)).map Entry.size) 0)).map
          (fun m => (⟨m.1.proc, nb * (boxAt bin r).count + nb * m.2, nb * m.1.size⟩ : Msg))).map Msg.peer =
        (dropSelf (decide (0 < cnt bin bout r r)) (recvEntries direct bin r (boxAt bout r))).map Entry.proc := by
      rw [List.map_map]
      have : (Msg.peer ∘ fun m : Entry × Int => (⟨m.1.proc, nb * (boxAt bin r).count + nb * m.2, nb * m.1.size⟩ : Msg)) =
          Entry.proc ∘ Prod.fst := rfl
      rw [this, ← List.map_map, List.map_fst_zip]
      by_cases hnil : recvEntries direct bin r (boxAt bout r) = []
      · rw [hnil]; unfold dropSelf; split <;> simp
      · rw [recvLocs_length _ _ (by simpa using hnil), List.length_map]
        unfold dropSelf
        split
        · simp
        · exact le_rfl
    by_cases hrs : s ≠ r ∧ 0 < cnt bin bout s r
    · rw [if_neg hrs.1]
      exact sum_peer_len (by rw [hpeers]; exact hnd)
        ((hmem _).2 ⟨_, (mem_dropRecv hl hr).2 ⟨s, hs, hrs.1, hrs.2, rfl⟩, rfl⟩) (recvE_proc (direct := direct) (bin := bin) (bout := bout) r s) (by rw [recvE_size])
    · rw [sum_no_peer]
      · split
        · rfl
        · rename_i hne
          rw [show cnt bin bout s r = 0 by have : ¬ 0 < cnt bin bout s r := fun h => hrs ⟨hne, h⟩
                                           omega]
          simp
      · intro m hm
        obtain ⟨e, he, rfl⟩ := (hmem m).1 hm
        obtain ⟨q, -, hqs, hc, rfl⟩ := (mem_dropRecv hl hr).1 he
        dsimp only [recvE_proc]
        rintro rfl
        exact hrs ⟨hqs, hc⟩

/-- **C22** for the padded alltoall: sender and receiver use the same count, which is large enough for the common
indexes. -/
theorem C22_alltoall (hl : bout.length = bin.length) (direct : Bool) (stride nb : Nat) {s r : Nat} {a b : Box}
    (ha : bin[s]? = some a) (hb : bout[r]? = some b) (done done' : List Nat) :
    ∃ os or, makeAllToAll direct bin bout s = .ok os ∧ makeAllToAll direct bin bout r = .ok or ∧
      sentTo (Shaper.job stride nb done (os.map (.alltoall direct))) r =
        expectedFrom (Shaper.job stride nb done' (or.map (.alltoall direct))) s ∧
      nb * (a.points ∩ b.points).card ≤ sentTo (Shaper.job stride nb done (os.map (.alltoall direct))) r := by
  have hs := (List.getElem?_eq_some_iff.1 ha).1
  have hr : r < bin.length := by rw [← hl]; exact (List.getElem?_eq_some_iff.1 hb).1
  obtain ⟨g, hg, hobj⟩ := groupsA (direct := direct) hl
  refine ⟨_, _, hobj s hs, hobj r hr, ?_⟩
  have hj : ∀ (q : Nat) (d : List Nat), Shaper.job stride nb d ((objA direct bin bout g q).map (.alltoall direct)) =
      jobA direct bin bout g stride nb q := by
    intro q d
    unfold jobA
    cases objA direct bin bout g q <;> rfl
  rw [hj, hj, jobA_eq hl hg _ _ hs, jobA_eq hl hg _ _ hr, ← cnt_card ha hb]
  unfold sentTo expectedFrom
  dsimp only
  by_cases hrs : r ∈ g s
  · have hsr := hg.symm hs hrs
    have hE : entA bin bout g r = entA bin bout g s := by
      unfold entA
      rw [hg.same s r hs hrs]
    have hm := (mem_zipMsgs (nb * entA bin bout g s) (fun q d => ⟨q, d, nb * entA bin bout g s⟩) (g s) 0 (hg.nodup hs) _).2
      ⟨r, hrs, rfl⟩
    have hn := zipMsgs_peers (nb * entA bin bout g s) (fun q d => ⟨q, d, nb * entA bin bout g s⟩) (fun _ _ => rfl) (g s) 0
    have e1 := sum_peer (by rw [hn]; exact hg.nodup hs) hm
    have hm' := (mem_zipMsgs (nb * entA bin bout g r)
      (fun q d => ⟨q, nb * entA bin bout g r * (g r).length + d, nb * entA bin bout g r⟩) (g r) 0 (hg.nodup hr) _).2
      ⟨s, hsr, rfl⟩
    have hn' := zipMsgs_peers (nb * entA bin bout g r)
      (fun q d => ⟨q, nb * entA bin bout g r * (g r).length + d, nb * entA bin bout g r⟩) (fun _ _ => rfl) (g r) 0
    have e2 := sum_peer (by rw [hn']; exact hg.nodup hr) hm'
    dsimp only at e1 e2
    rw [e1, e2, hE]
    refine ⟨rfl, ?_⟩
    exact mul_le_mul_of_nonneg_left (cnt_le_getMaxSize hl (hg.self s r hs hrs) hrs hs hr) (by positivity)
  · have hzero : cnt bin bout s r = 0 := by
      have h0 := cnt_nonneg (bin := bin) (bout := bout) s r
      by_contra hc
      exact hrs (hg.nbr s r hs (cnt_pos_adj hl hs hr (by omega)))
    rw [sum_no_peer, sum_no_peer, hzero]
    · simp
    · intro m hm
      obtain ⟨q, hq, rfl⟩ := (mem_zipMsgs (nb * entA bin bout g r)
        (fun q d => ⟨q, nb * entA bin bout g r * (g r).length + d, nb * entA bin bout g r⟩) (g r) 0 (hg.nodup hr) _).1 hm
      rintro rfl; exact hrs (hg.symm hr hq)
    · intro m hm
      obtain ⟨q, hq, rfl⟩ := (mem_zipMsgs (nb * entA bin bout g s) (fun q d => ⟨q, d, nb * entA bin bout g s⟩) (g s) 0
        (hg.nodup hs) _).1 hm
      rintro rfl; exact hrs hq

/-- In the example with batch size two: rank 0 sends twice four entries to each rank. -/
example : (makeAllToAllv false exA exB 0).map (fun o => (o.map fun o =>
      [0, 1, 2].map fun r => sentTo (o.job false 16 2) r)) = .ok (some [8, 8, 8]) := by decide
example : (makeAllToAllv false exA exB 2).map (fun o => (o.map fun o =>
      [0, 1, 2].map fun s => expectedFrom (o.job false 16 2) s)) = .ok (some [8, 4, 4]) := by decide

/-! ## C23 -/

/-- What the groups of a collective exchange have to satisfy: `group r` is the list that rank `r` computes, empty on a
rank that does not take part. -/
structure ConsistentGroups (bin bout : List Box) (group : Nat → List Nat) : Prop where
  /-- a list of ranks in increasing order -/
  increasing : ∀ r, r < bin.length → (group r).Pairwise (· < ·) ∧ ∀ q ∈ group r, q < bin.length
  /-- a rank that takes part is in its group and all the members compute the same list -/
  agree : ∀ r q, r < bin.length → q ∈ group r → r ∈ group r ∧ group q = group r
  /-- ranks that exchange data are in one group -/
  exchange : ∀ (s r : Nat) a b, bin[s]? = some a → bout[r]? = some b → (a.points ∩ b.points).Nonempty →
    r ∈ group s ∧ s ∈ group r
  /-- groups are identical or disjoint -/
  apart : ∀ s r, s < bin.length → r < bin.length → group s = group r ∨ ∀ q ∈ group s, q ∉ group r

theorem GroupFacts.consistent (hl : bout.length = bin.length) {g : Nat → List Nat} (hg : GroupFacts bin bout g) :
    ConsistentGroups bin bout g := by
  refine ⟨?_, ?_, ?_, ?_⟩
  · intro r hr
    refine ⟨?_, fun q hq => hg.lt hr hq⟩
    rw [hg.sorted r hr]
    exact List.pairwise_lt_range.filter _
  · intro r q hr hq
    exact ⟨hg.self r q hr hq, hg.same r q hr hq⟩
  · intro s r a b ha hb hne
    have hs := (List.getElem?_eq_some_iff.1 ha).1
    have hr : r < bin.length := by rw [← hl]; exact (List.getElem?_eq_some_iff.1 hb).1
    have hadj := cnt_pos_adj hl hs hr (by
      rw [cnt_card ha hb]
      exact_mod_cast Finset.card_pos.2 hne)
    exact ⟨hg.nbr s r hs hadj, hg.nbr r s hr hadj.symm⟩
  · intro s r hs hr
    by_cases h : ∃ q ∈ g s, q ∈ g r
    · obtain ⟨q, h1, h2⟩ := h
      left
      rw [← hg.same s q hs h1, ← hg.same r q hr h2]
    · right
      intro q h1 h2
      exact h ⟨q, h1, h2⟩

/-- **C23** for alltoallv. -/
theorem C23_groups_alltoallv (hl : bout.length = bin.length) (direct : Bool) :
    ∃ objs : Nat → Option AllToAllv, (∀ r, r < bin.length → makeAllToAllv direct bin bout r = .ok (objs r)) ∧
      ConsistentGroups bin bout fun r => ((objs r).map AllToAllv.group).getD [] := by
  obtain ⟨g, hg, hobj⟩ := groupsV (direct := direct) hl
  refine ⟨_, hobj, ?_⟩
  have : (fun r => ((objV direct bin bout g r).map AllToAllv.group).getD []) = g := by
    funext r
    unfold objV
    by_cases h : g r = []
    · rw [if_pos h, h]; rfl
    · rw [if_neg h]; rfl
  rw [this]
  exact hg.consistent hl

/-- **C23** for alltoall. -/
theorem C23_groups_alltoall (hl : bout.length = bin.length) (direct : Bool) :
    ∃ objs : Nat → Option AllToAll, (∀ r, r < bin.length → makeAllToAll direct bin bout r = .ok (objs r)) ∧
      ConsistentGroups bin bout fun r => ((objs r).map AllToAll.group).getD [] := by
  obtain ⟨g, hg, hobj⟩ := groupsA (direct := direct) hl
  refine ⟨_, hobj, ?_⟩
  have : (fun r => ((objA direct bin bout g r).map AllToAll.group).getD []) = g := by
    funext r
    unfold objA
    by_cases h : g r = []
    · rw [if_pos h, h]; rfl
    · rw [if_neg h]; rfl
  rw [this]
  exact hg.consistent hl

/-- Four ranks, two groups. -/
example :
    let a : List Box := [⟨⟨0, 0, 0⟩, ⟨1, 0, 3⟩, ⟨0, 1, 2⟩⟩, ⟨⟨0, 1, 0⟩, ⟨1, 1, 3⟩, ⟨0, 1, 2⟩⟩, ⟨⟨2, 0, 0⟩, ⟨3, 0, 3⟩, ⟨0, 1, 2⟩⟩,
      ⟨⟨2, 1, 0⟩, ⟨3, 1, 3⟩, ⟨0, 1, 2⟩⟩]
    let b : List Box := [⟨⟨0, 0, 0⟩, ⟨3, 0, 1⟩, ⟨0, 1, 2⟩⟩, ⟨⟨0, 1, 0⟩, ⟨3, 1, 1⟩, ⟨0, 1, 2⟩⟩, ⟨⟨0, 0, 2⟩, ⟨3, 0, 3⟩, ⟨0, 1, 2⟩⟩,
      ⟨⟨0, 1, 2⟩, ⟨3, 1, 3⟩, ⟨0, 1, 2⟩⟩]
    ([0, 1, 2, 3].map fun r => (makeAllToAllv true a b r).toOption.map fun o => o.map AllToAllv.group) =
      [some (some [0, 2]), some (some [1, 3]), some (some [0, 2]), some (some [1, 3])] := by decide

/-! ## C24 - C26 -/

/-- The destination, but the source without a reshape object. -/
def pick (sh : Option Shaper) (src dst : List α) : List α :=
  match sh with
  | none => src
  | some _ => dst

/-- The array with the data of a rank after a reshape: the destination, but the source on a rank without a reshape
object, which has nothing to do. -/
def current (shs : List (Option Shaper)) (srcs dsts : List (List α)) : List (List α) :=
  ((shs.zip srcs).zip dsts).map fun x => pick x.1.1 x.1.2 x.2

theorem current_get {shs : List (Option Shaper)} {srcs dsts : List (List α)} {r : Nat} {sh : Option Shaper}
    {src dst : List α} (h1 : shs[r]? = some sh) (h2 : srcs[r]? = some src) (h3 : dsts[r]? = some dst) :
    (current shs srcs dsts)[r]? = some (pick sh src dst) := by
  unfold current
  rw [List.getElem?_map]
  have : ((shs.zip srcs).zip dsts)[r]? = some ((sh, src), dst) := by
    rw [List.getElem?_zip_eq_some, List.getElem?_zip_eq_some]
    exact ⟨⟨h1, h2⟩, h3⟩
  rw [this]; rfl

/-- A reshape with the given algorithm moves the data from the distribution `bin` to `bout`: the objects can be made on
all the ranks, and for every element type, global data, batch size, block size of the packing loops, completion
order of the messages and content of destination and workspace, applying the reshape succeeds (no access out of
bounds, no mismatched message) and then every rank holds its part of the data in the layout of its new box; entries of
the destination behind that part are not changed. -/
def MovesEveryIndex (alg : Alg) (bin bout : List Box) : Prop :=
  ∃ shs, shapersOf alg bin bout = .ok shs ∧ shs.length = bin.length ∧
    ∀ {α : Type} (nb stride : Nat) (done : Nat → List Nat) (inplace : Nat → Bool) (mems : List (Arrays α)) (G : Nat → A3 Int → α),
      0 < stride → ArrivalOrder bin bout done → Ready bin bout nb (mems.map Arrays.src) (mems.map Arrays.dst) G →
      (∀ (r : Nat) sh m, shs[r]? = some (some sh) → mems[r]? = some m → nb * sh.sizeWorkspace ≤ m.ws.length) →
      ∃ dsts, reshapeAll stride nb done inplace shs mems = .ok dsts ∧
        Distributed bout nb (current shs (mems.map Arrays.src) dsts) G ∧
        ∀ (r : Nat) m b, mems[r]? = some m → bout[r]? = some b → ∃ d, dsts[r]? = some d ∧ d.length = m.dst.length ∧
          ∀ a, (nb * b.points.card : Int) ≤ a → rd d a = rd m.dst a

theorem shapersOf_ok (h : Redistribution bin bout w) (alg : Alg) :
    ∃ shs, shapersOf alg bin bout = .ok shs ∧ shs.length = bin.length := by
  rcases shapersOf_cases h alg with ⟨-, hs⟩ | ⟨-, g, -, hs⟩
  · exact ⟨_, hs, by simp⟩
  · exact ⟨_, hs, by simp⟩

theorem moves_every_index (h : Redistribution bin bout w) (alg : Alg) : MovesEveryIndex alg bin bout := by
  obtain ⟨shs, hshs, hsl⟩ := shapersOf_ok h alg
  refine ⟨shs, hshs, hsl, ?_⟩
  intro α nb stride done inplace mems G hstr hdone hr hws
  obtain ⟨dsts, h1, h2, h3⟩ := reshape_main h alg hstr nb hdone inplace hr hshs hws
  have hlen : mems.length = bin.length := by simpa using hr.sources
  refine ⟨dsts, h1, ⟨?_, ?_⟩, ?_⟩
  · simp [current, hsl, hlen, h2, h.length]
  · intro r b mem hb hmem
    have hrn : r < bin.length := by rw [← h.length]; exact (List.getElem?_eq_some_iff.1 hb).1
    have e1 : shs[r]? = some shs[r] := List.getElem?_eq_getElem (by omega)
    have e2 : mems[r]? = some mems[r] := List.getElem?_eq_getElem (by omega)
    obtain ⟨d, hd, -, -, hc, hn⟩ := h3 r b _ _ hb e2 e1
    rw [current_get e1 (by rw [List.getElem?_map, e2]; rfl) hd] at hmem
    cases hsh : shs[r] with
    | none =>
      rw [hsh] at hmem
      obtain rfl := Option.some.inj hmem
      exact (hn hsh).2
    | some sh =>
      rw [hsh] at hmem
      obtain rfl := Option.some.inj hmem
      exact hc (by rw [hsh]; simp)
  · intro r m b hm hb
    have hrn : r < bin.length := by rw [← h.length]; exact (List.getElem?_eq_some_iff.1 hb).1
    have e1 : shs[r]? = some shs[r] := List.getElem?_eq_getElem (by omega)
    obtain ⟨d, hd, hdl, ht, -, -⟩ := h3 r b m _ hb hm e1
    exact ⟨d, hd, hdl, ht⟩

/-- **C24.** -/
theorem C24_alltoallv (h : Redistribution bin bout w) : MovesEveryIndex .alltoallv bin bout := moves_every_index h _

/-- **C25.** -/
theorem C25_alltoall (h : Redistribution bin bout w) : MovesEveryIndex .alltoall bin bout := moves_every_index h _

/-- **C26.** -/
theorem C26_pointtopoint (h : Redistribution bin bout w) :
    MovesEveryIndex .p2p bin bout ∧ MovesEveryIndex .p2pPlined bin bout := ⟨moves_every_index h _, moves_every_index h _⟩

/-- **C24 - C26** in place: one array per rank, large enough for both distributions. -/
theorem C24_in_place (h : Redistribution bin bout w) (alg : Alg) {shs : List (Option Shaper)}
    (hshs : shapersOf alg bin bout = .ok shs) {stride : Nat} (hstr : 0 < stride) (nb : Nat) {done : Nat → List Nat}
    (hdone : ArrivalOrder bin bout done) {arrays : List (List α × List α)} {G : Nat → A3 Int → α}
    (hd : Distributed bin nb (arrays.map Prod.fst) G)
    (hlen : ∀ (r : Nat) a b x, bin[r]? = some a → bout[r]? = some b → arrays[r]? = some x →
      nb * a.points.card ≤ x.1.length ∧ nb * b.points.card ≤ x.1.length)
    (hws : ∀ (r : Nat) sh x, shs[r]? = some (some sh) → arrays[r]? = some x → nb * sh.sizeWorkspace ≤ x.2.length) :
    ∃ dsts, reshapeAll stride nb done (fun _ => true) shs (arrays.map fun x => ⟨x.1, x.1, x.2⟩) = .ok dsts ∧
      Distributed bout nb dsts G := by
  have hal : arrays.length = bin.length := by simpa using hd.1
  have em : (arrays.map fun x => (⟨x.1, x.1, x.2⟩ : Arrays α)).map Arrays.src = arrays.map Prod.fst := by
    simp [List.map_map, Function.comp_def]
  have em' : (arrays.map fun x => (⟨x.1, x.1, x.2⟩ : Arrays α)).map Arrays.dst = arrays.map Prod.fst := by
    simp [List.map_map, Function.comp_def]
  obtain ⟨shs', hshs', hsl⟩ := shapersOf_ok h alg
  rw [hshs] at hshs'
  obtain rfl := Except.ok.inj hshs'
  have hget : ∀ {r : Nat} {x}, (arrays.map Prod.fst)[r]? = some x → ∃ y, arrays[r]? = some y ∧ x = y.1 := by
    intro r x hx
    rw [List.getElem?_map, Option.map_eq_some_iff] at hx
    obtain ⟨y, hy, rfl⟩ := hx
    exact ⟨y, hy, rfl⟩
  obtain ⟨dsts, h1, h2, h3⟩ := reshape_main h alg hstr nb hdone (fun _ => true)
    (mems := arrays.map fun x => (⟨x.1, x.1, x.2⟩ : Arrays α)) (G := G) (by
      rw [em, em']
      refine ⟨by simpa using hal, by simpa using hal, ?_, ?_, ?_⟩
      · intro r b src hb hs
        obtain ⟨y, hy, rfl⟩ := hget hs
        have hrn := (List.getElem?_eq_some_iff.1 hb).1
        exact (hlen r b _ y hb (List.getElem?_eq_getElem (by rw [h.length]; exact hrn)) hy).1
      · intro r b src hb hs
        obtain ⟨y, hy, rfl⟩ := hget hs
        have hrn : r < bin.length := by rw [← h.length]; exact (List.getElem?_eq_some_iff.1 hb).1
        exact (hlen r _ b y (List.getElem?_eq_getElem hrn) hb hy).2
      · intro r b src hb hs
        exact hd.2 r b src hb hs) hshs (by
      intro r sh m hsh hm
      rw [List.getElem?_map, Option.map_eq_some_iff] at hm
      obtain ⟨y, hy, rfl⟩ := hm
      exact hws r sh y hsh hy)
  refine ⟨dsts, h1, by rw [h2, h.length], ?_⟩
  intro r b mem hb hmem
  have hrn : r < bin.length := by rw [← h.length]; exact (List.getElem?_eq_some_iff.1 hb).1
  have e1 : shs[r]? = some shs[r] := List.getElem?_eq_getElem (by omega)
  have e2 : (arrays.map fun x => (⟨x.1, x.1, x.2⟩ : Arrays α))[r]? = some ⟨arrays[r].1, arrays[r].1, arrays[r].2⟩ := by
    rw [List.getElem?_map, List.getElem?_eq_getElem (by omega)]; rfl
  obtain ⟨d, hd', -, -, hc, hn⟩ := h3 r b _ _ hb e2 e1
  rw [hd'] at hmem
  obtain rfl := Option.some.inj hmem
  cases hsh : shs[r] with
  | none =>
    obtain ⟨e, hh⟩ := hn hsh
    rw [e]; exact hh
  | some sh => exact hc (by rw [hsh]; simp)

/-- The arrays of the example: the value of an index is its number in the world. -/
def exArrays : List (Arrays Nat) :=
  [⟨[0, 1, 4, 5, 8, 9, 12, 13, 16, 17, 20, 21], List.replicate 8 99, List.replicate 24 77⟩,
   ⟨[2, 6, 10, 14, 18, 22], List.replicate 8 99, List.replicate 24 77⟩,
   ⟨[3, 7, 11, 15, 19, 23], List.replicate 8 99, List.replicate 24 77⟩]

/-- All the hypotheses hold for the example and the reshape does what it should. -/
example : Ready exA exB 1 (exArrays.map Arrays.src) (exArrays.map Arrays.dst) (fun _ p => (p.x + 4 * p.y + 8 * p.z).toNat) := by
  have card : ∀ b : Box, (b.points.card : Int) = b.count := fun b => (Box.count_eq_card b).symm
  refine ⟨rfl, rfl, ?_, ?_, ?_⟩
  · intro r b src hb hs
    zify
    rw [card]
    match r with
    | 0 | 1 | 2 =>
      simp [exA, exArrays] at hb hs
      rw [← hb, ← hs]; decide
    | r + 3 => simp [exA] at hb
  · intro r b src hb hs
    zify
    rw [card]
    match r with
    | 0 | 1 | 2 =>
      simp [exB, exArrays] at hb hs
      rw [← hb, ← hs]; decide
    | r + 3 => simp [exB] at hb
  · intro r b src hb hs j hj p hp
    obtain rfl : j = 0 := by omega
    have h0 := hp 0
    have h1 := hp 1
    have h2 := hp 2
    obtain ⟨x, y, z⟩ := p
    match r with
    | 0 =>
      simp only [exA, exArrays, List.getElem?_cons_zero, Option.some.injEq, List.map_cons] at hb hs
      subst hb hs
      simp only [A3.get] at h0 h1 h2
      obtain ⟨rfl | rfl, rfl | rfl, rfl | rfl | rfl⟩ : (x = 0 ∨ x = 1) ∧ (y = 0 ∨ y = 1) ∧ (z = 0 ∨ z = 1 ∨ z = 2) := by omega
      all_goals rfl
    | 1 =>
      simp only [exA, exArrays, List.getElem?_cons_zero, List.getElem?_cons_succ, Option.some.injEq, List.map_cons] at hb hs
      subst hb hs
      simp only [A3.get] at h0 h1 h2
      obtain ⟨rfl, rfl | rfl, rfl | rfl | rfl⟩ : (x = 2) ∧ (y = 0 ∨ y = 1) ∧ (z = 0 ∨ z = 1 ∨ z = 2) := by omega
      all_goals rfl
    | 2 =>
      simp only [exA, exArrays, List.getElem?_cons_zero, List.getElem?_cons_succ, Option.some.injEq, List.map_cons] at hb hs
      subst hb hs
      simp only [A3.get] at h0 h1 h2
      obtain ⟨rfl, rfl | rfl, rfl | rfl | rfl⟩ : (x = 3) ∧ (y = 0 ∨ y = 1) ∧ (z = 0 ∨ z = 1 ∨ z = 2) := by omega
      all_goals rfl
    | r + 3 => simp [exA] at hb

example : (shapersOf .alltoall exA exA).map (fun l => l.map fun s => s.isNone) = .ok [true, true, true] := by decide

/-! ## Arbitrary arrays as distributed data -/

theorem Tiles.unique_get {l : List Box} (h : Tiles l w) {i j : Nat} {a b : Box} (hi : l[i]? = some a) (hj : l[j]? = some b)
    {p : A3 Int} (hp : p ∈ a) (hq : p ∈ b) : i = j := by
  have hil := (List.getElem?_eq_some_iff.1 hi).1
  have hjl := (List.getElem?_eq_some_iff.1 hj).1
  have e1 := boxAt_get hil
  have e2 := boxAt_get hjl
  rw [hi] at e1; rw [hj] at e2
  rw [Option.some.inj e1] at hp
  rw [Option.some.inj e2] at hq
  exact h.boxAt_unique hil hjl hp hq

/-- Any arrays of sufficient size are the parts of some distributed data. -/
theorem exists_data [Nonempty α] {boxes : List Box} (ht : Tiles boxes w) (hv : ∀ b ∈ boxes, IsOrder b.order) (nb : Nat)
    {mems : List (List α)}
    (hlen : ∀ (r : Nat) b mem, boxes[r]? = some b → mems[r]? = some mem → nb * b.points.card ≤ mem.length) :
    ∃ G : Nat → A3 Int → α, ∀ (r : Nat) b mem, boxes[r]? = some b → mems[r]? = some mem → HoldsBatch b nb mem G := by
  classical
  let P : Nat → A3 Int → α → Prop := fun j p v => ∃ (r : Nat) (b : Box) (mem : List α), boxes[r]? = some b ∧
    mems[r]? = some mem ∧ p ∈ b ∧ rd mem (j * b.points.card + b.offset p) = some v
  refine ⟨fun j p => Classical.epsilon (P j p), ?_⟩
  intro r b mem hb hm j hj p hp
  have hr := Box.offset_range (hv b (List.mem_of_getElem? hb)) hp
  rw [Box.count_eq_card] at hr
  have hl := hlen r b mem hb hm
  have hin : 0 ≤ (j * b.points.card : Int) + b.offset p ∧ (j * b.points.card : Int) + b.offset p < mem.length := by
    have := mul_count_le hj hr
    refine ⟨this.1, lt_of_lt_of_le this.2 (by exact_mod_cast hl)⟩
  obtain ⟨v, hv'⟩ := rd_some_iff.2 hin
  have hex : P j p v := ⟨r, b, mem, hb, hm, hp, hv'⟩
  obtain ⟨r', b', mem', hb', hm', hp', hv''⟩ := Classical.epsilon_spec (p := P j p) ⟨v, hex⟩
  obtain rfl := ht.unique_get hb hb' hp hp'
  rw [hb] at hb'; rw [hm] at hm'
  obtain rfl := Option.some.inj hb'
  obtain rfl := Option.some.inj hm'
  exact hv''

/-- The entries of a local array below its size are those of the distributed data. -/
theorem HoldsBatch.eq_below {b : Box} (hv : IsOrder b.order) {nb : Nat} {x y : List α} {G : Nat → A3 Int → α}
    (hx : HoldsBatch b nb x G) (hy : HoldsBatch b nb y G) {a : Int} (h0 : 0 ≤ a) (h1 : a < nb * b.points.card) :
    rd x a = rd y a := by
  have hc : (0 : Int) < b.points.card := by
    rcases Nat.eq_zero_or_pos b.points.card with h | h
    · rw [h] at h1; simp at h1; omega
    · exact_mod_cast h
  have hj0 : 0 ≤ a / b.points.card := Int.ediv_nonneg h0 hc.le
  have hj : a / b.points.card < nb := Int.ediv_lt_of_lt_mul hc h1
  obtain ⟨p, hp, ho⟩ := Box.offset_surj hv (Int.emod_nonneg a hc.ne') (by
    rw [Box.count_eq_card]; exact Int.emod_lt_of_pos a hc)
  have e : (((a / b.points.card).toNat : Nat) : Int) * b.points.card + b.offset p = a := by
    rw [ho, Int.toNat_of_nonneg hj0, mul_comm, Int.mul_ediv_add_emod]
  have h1 := hx (a / b.points.card).toNat (by omega) p hp
  have h2 := hy (a / b.points.card).toNat (by omega) p hp
  rw [e] at h1 h2
  rw [h1, h2]

/-! ## C27 -/

/-- A rank that needs no object with one algorithm but has one with another has no indexes. -/
theorem null_differs (h : Redistribution bin bout w) {alg alg' : Alg} {shs shs' : List (Option Shaper)}
    (hs : shapersOf alg bin bout = .ok shs) (hs' : shapersOf alg' bin bout = .ok shs') {r : Nat} {sh' : Option Shaper}
    (hn : shs[r]? = some none) (hc : shs'[r]? = some sh') (hne : sh' ≠ none) :
    (∀ p : A3 Int, p ∉ boxAt bin r) ∧ ∀ p : A3 Int, p ∉ boxAt bout r := by
  rcases shapersOf_cases h alg with ⟨hm, e⟩ | ⟨hm, g, hg, e⟩ <;>
    rcases shapersOf_cases h alg' with ⟨hm', e'⟩ | ⟨hm', g', hg', e'⟩
  · rw [hs] at e; rw [hs'] at e'
    rw [Except.ok.inj e] at hn
    rw [Except.ok.inj e', hn] at hc
    exact absurd (Option.some.inj hc).symm hne
  · rw [hm] at hm'; simp at hm'
  · rw [hm] at hm'; simp at hm'
  · rw [hs] at e
    rw [Except.ok.inj e] at hn
    have hr : r < bin.length := by
      have := (List.getElem?_eq_some_iff.1 hn).1
      simpa using this
    rw [List.getElem?_map, List.getElem?_range hr] at hn
    have hn' : commShaper alg (directOf bin bout) bin bout g r = none := Option.some.inj hn
    refine no_group h hg hr ?_
    unfold commShaper objV objA at hn'
    by_contra hgr
    cases alg <;> simp [hgr] at hn'

/-- **C27.** Two runs of a reshape with any two algorithms, packing block sizes and completion orders, in place or not,
from equal sources and destinations of sufficient size give identical destinations on every rank. -/
theorem C27_algorithm_independent [Nonempty α] (h : Redistribution bin bout w) (alg alg' : Alg)
    {shs shs' : List (Option Shaper)} (hs : shapersOf alg bin bout = .ok shs) (hs' : shapersOf alg' bin bout = .ok shs')
    (nb : Nat) {stride stride' : Nat} (hstr : 0 < stride) (hstr' : 0 < stride') {done done' : Nat → List Nat}
    (hdone : ArrivalOrder bin bout done) (hdone' : ArrivalOrder bin bout done') (inplace inplace' : Nat → Bool)
    {mems mems' : List (Arrays α)} (hlen : mems.length = bin.length)
    (hsrc : mems'.map Arrays.src = mems.map Arrays.src) (hdst : mems'.map Arrays.dst = mems.map Arrays.dst)
    (hsz : ∀ (r : Nat) a b m, bin[r]? = some a → bout[r]? = some b → mems[r]? = some m →
      nb * a.points.card ≤ m.src.length ∧ nb * b.points.card ≤ m.dst.length)
    (hws : ∀ (r : Nat) sh m, shs[r]? = some (some sh) → mems[r]? = some m → nb * sh.sizeWorkspace ≤ m.ws.length)
    (hws' : ∀ (r : Nat) sh m, shs'[r]? = some (some sh) → mems'[r]? = some m → nb * sh.sizeWorkspace ≤ m.ws.length) :
    ∃ dsts, reshapeAll stride nb done inplace shs mems = .ok dsts ∧
      reshapeAll stride' nb done' inplace' shs' mems' = .ok dsts := by
  have hlen' : mems'.length = bin.length := by
    have := congrArg List.length hsrc
    simpa [hlen] using this
  have hgetM : ∀ {β : Type} {f : Arrays α → β} {r : Nat} {x : β}, (mems.map f)[r]? = some x → ∃ m, mems[r]? = some m ∧ x = f m := by
    intro β f r x hx
    rw [List.getElem?_map, Option.map_eq_some_iff] at hx
    obtain ⟨m, hm, rfl⟩ := hx
    exact ⟨m, hm, rfl⟩
  have hOut : ∀ {r : Nat}, r < bin.length → ∃ b, bout[r]? = some b := fun hr =>
    ⟨_, List.getElem?_eq_getElem (by rw [h.length]; exact hr)⟩
  have hIn : ∀ {r : Nat}, r < bin.length → ∃ b, bin[r]? = some b := fun hr => ⟨_, List.getElem?_eq_getElem hr⟩
  have hsS : ∀ (r : Nat) b src, bin[r]? = some b → (mems.map Arrays.src)[r]? = some src → nb * b.points.card ≤ src.length := by
    intro r b src hb hx
    obtain ⟨m, hm, rfl⟩ := hgetM hx
    obtain ⟨b', hb'⟩ := hOut (List.getElem?_eq_some_iff.1 hb).1
    exact (hsz r b b' m hb hb' hm).1
  have hsD : ∀ (r : Nat) b dst, bout[r]? = some b → (mems.map Arrays.dst)[r]? = some dst → nb * b.points.card ≤ dst.length := by
    intro r b src hb hx
    obtain ⟨m, hm, rfl⟩ := hgetM hx
    obtain ⟨a, ha⟩ := hIn (by rw [← h.length]; exact (List.getElem?_eq_some_iff.1 hb).1)
    exact (hsz r a b m ha hb hm).2
  obtain ⟨G, hG⟩ := exists_data h.tilesIn h.validIn nb hsS
  have hr : Ready bin bout nb (mems.map Arrays.src) (mems.map Arrays.dst) G :=
    ⟨by simpa using hlen, by simpa using hlen, hsS, hsD, hG⟩
  obtain ⟨d1, e1, l1, f1⟩ := reshape_main h alg hstr nb hdone inplace hr hs hws
  obtain ⟨d2, e2, l2, f2⟩ := reshape_main h alg' hstr' nb hdone' inplace' (by rw [hsrc, hdst]; exact hr) hs' hws'
  refine ⟨d1, e1, ?_⟩
  rw [e2]
  congr 1
  apply List.ext_getElem?
  intro r
  by_cases hrn : r < bin.length
  · obtain ⟨b, hb⟩ := hOut hrn
    obtain ⟨_, hsl⟩ := shapersOf_ok h alg
    rw [hs] at hsl; obtain ⟨heq, hsl⟩ := hsl; obtain rfl := Except.ok.inj heq
    obtain ⟨_, hsl'⟩ := shapersOf_ok h alg'
    rw [hs'] at hsl'; obtain ⟨heq, hsl'⟩ := hsl'; obtain rfl := Except.ok.inj heq
    have s1 : shs[r]? = some shs[r] := List.getElem?_eq_getElem (by omega)
    have s2 : shs'[r]? = some shs'[r] := List.getElem?_eq_getElem (by omega)
    have m1 : mems[r]? = some mems[r] := List.getElem?_eq_getElem (by omega)
    have m2 : mems'[r]? = some mems'[r] := List.getElem?_eq_getElem (by omega)
    have hdd : mems'[r].dst = mems[r].dst := by
      have := congrArg (fun l => l[r]?) hdst
      simpa [List.getElem?_map, m1, m2] using this
    obtain ⟨x, hx, xl, xt, xc, xn⟩ := f1 r b _ _ hb m1 s1
    obtain ⟨y, hy, yl, yt, yc, yn⟩ := f2 r b _ _ hb m2 s2
    rw [hx, hy]
    congr 1
    have hbv : IsOrder b.order := h.validOut b (List.mem_of_getElem? hb)
    have hbB : boxAt bout r = b := by
      have := boxAt_get (l := bout) (r := r) (by rw [h.length]; exact hrn)
      rw [hb] at this; exact (Option.some.inj this).symm
    have zero : (∀ p : A3 Int, p ∉ boxAt bout r) → x = y := by
      intro hz
      rw [hbB] at hz
      have hc : (b.points.card : Int) = 0 := by rw [← Box.count_eq_card]; exact count_zero hz
      refine ext_rd (by rw [xl, yl, hdd]) fun a h0 _ => ?_
      rw [xt a (by rw [hc]; omega), yt a (by rw [hc]; omega), hdd]
    symm
    by_cases n1 : shs[r] = none
    · by_cases n2 : shs'[r] = none
      · rw [(xn n1).1, (yn n2).1, hdd]
      · exact zero (null_differs h hs hs' (by rw [s1, n1]) s2 n2).2
    · by_cases n2 : shs'[r] = none
      · exact zero (null_differs h hs' hs (by rw [s2, n2]) s1 n1).2
      · refine ext_rd (by rw [xl, yl, hdd]) fun a h0 _ => ?_
        by_cases ha : a < nb * b.points.card
        · exact HoldsBatch.eq_below hbv (xc n1) (yc n2) h0 ha
        · rw [xt a (by omega), yt a (by omega), hdd]
  · rw [List.getElem?_eq_none (by omega), List.getElem?_eq_none (by omega)]

/-! ## C28 -/

theorem Redistribution.symm (h : Redistribution bin bout w) : Redistribution bout bin w :=
  ⟨fun e => h.ranks (List.length_eq_zero_iff.1 (by rw [← h.length, e]; rfl)), h.length.symm, h.tilesOut, h.tilesIn, h.orderOut, h.orderIn⟩

/-- **C28.** Redistribute from `bin` to `bout` and back, with any algorithms, in place or not: every rank has its original
entries again.  The arrays of the second reshape start with the data where the first one left it. -/
theorem C28_round_trip [Nonempty α] (h : Redistribution bin bout w) (alg alg' : Alg) (nb : Nat)
    {shs shs' : List (Option Shaper)} (hs : shapersOf alg bin bout = .ok shs) (hs' : shapersOf alg' bout bin = .ok shs')
    {stride stride' : Nat} (hstr : 0 < stride) (hstr' : 0 < stride') {done done' : Nat → List Nat}
    (hdone : ArrivalOrder bin bout done) (hdone' : ArrivalOrder bout bin done') (inplace inplace' : Nat → Bool)
    {mems : List (Arrays α)} (hlen : mems.length = bin.length)
    (hsz : ∀ (r : Nat) a b m, bin[r]? = some a → bout[r]? = some b → mems[r]? = some m →
      nb * a.points.card ≤ m.src.length ∧ nb * b.points.card ≤ m.dst.length)
    (hws : ∀ (r : Nat) sh m, shs[r]? = some (some sh) → mems[r]? = some m → nb * sh.sizeWorkspace ≤ m.ws.length) :
    ∃ dsts, reshapeAll stride nb done inplace shs mems = .ok dsts ∧
      ∀ mems' : List (Arrays α), mems'.map Arrays.src = current shs (mems.map Arrays.src) dsts →
        (∀ (r : Nat) a m, bin[r]? = some a → mems'[r]? = some m → nb * a.points.card ≤ m.dst.length) →
        (∀ (r : Nat) sh m, shs'[r]? = some (some sh) → mems'[r]? = some m → nb * sh.sizeWorkspace ≤ m.ws.length) →
        ∃ dsts', reshapeAll stride' nb done' inplace' shs' mems' = .ok dsts' ∧
          ∀ (r : Nat) a m, bin[r]? = some a → mems[r]? = some m →
            ∃ x, (current shs' (mems'.map Arrays.src) dsts')[r]? = some x ∧
              ∀ i : Int, 0 ≤ i → i < nb * a.points.card → rd x i = rd m.src i := by
  have hgetM : ∀ {β : Type} {f : Arrays α → β} {r : Nat} {x : β}, (mems.map f)[r]? = some x → ∃ m, mems[r]? = some m ∧ x = f m := by
    intro β f r x hx
    rw [List.getElem?_map, Option.map_eq_some_iff] at hx
    obtain ⟨m, hm, rfl⟩ := hx
    exact ⟨m, hm, rfl⟩
  have hOut : ∀ {r : Nat}, r < bin.length → ∃ b, bout[r]? = some b := fun hr =>
    ⟨_, List.getElem?_eq_getElem (by rw [h.length]; exact hr)⟩
  have hIn : ∀ {r : Nat}, r < bin.length → ∃ b, bin[r]? = some b := fun hr => ⟨_, List.getElem?_eq_getElem hr⟩
  have hsS : ∀ (r : Nat) b src, bin[r]? = some b → (mems.map Arrays.src)[r]? = some src → nb * b.points.card ≤ src.length := by
    intro r b src hb hx
    obtain ⟨m, hm, rfl⟩ := hgetM hx
    obtain ⟨b', hb'⟩ := hOut (List.getElem?_eq_some_iff.1 hb).1
    exact (hsz r b b' m hb hb' hm).1
  have hsD : ∀ (r : Nat) b dst, bout[r]? = some b → (mems.map Arrays.dst)[r]? = some dst → nb * b.points.card ≤ dst.length := by
    intro r b src hb hx
    obtain ⟨m, hm, rfl⟩ := hgetM hx
    obtain ⟨a, ha⟩ := hIn (by rw [← h.length]; exact (List.getElem?_eq_some_iff.1 hb).1)
    exact (hsz r a b m ha hb hm).2
  obtain ⟨G, hG⟩ := exists_data h.tilesIn h.validIn nb hsS
  have hr : Ready bin bout nb (mems.map Arrays.src) (mems.map Arrays.dst) G :=
    ⟨by simpa using hlen, by simpa using hlen, hsS, hsD, hG⟩
  obtain ⟨shs0, hs0, hsl, hmv⟩ := moves_every_index h alg
  rw [hs] at hs0
  obtain rfl := Except.ok.inj hs0
  obtain ⟨dsts, e1, D1, f1⟩ := hmv nb stride done inplace mems G hstr hdone hr hws
  refine ⟨dsts, e1, ?_⟩
  intro mems' hsrc' hdst' hws''
  obtain ⟨shs0', hs0', hsl', hmv'⟩ := moves_every_index h.symm alg'
  rw [hs'] at hs0'
  obtain rfl := Except.ok.inj hs0'
  have hlen' : mems'.length = bout.length := by
    have := congrArg List.length hsrc'
    rw [D1.1] at this
    simpa using this
  have holds' : ∀ (r : Nat) b src, bout[r]? = some b → (mems'.map Arrays.src)[r]? = some src → HoldsBatch b nb src G := by
    intro r b src hb hx
    rw [hsrc'] at hx
    exact D1.2 r b src hb hx
  obtain ⟨dsts', e2, D2, f2⟩ := hmv' nb stride' done' inplace' mems' G hstr' hdone' ⟨by simpa using hlen', by simpa using hlen', by
      intro r b src hb hx
      have hH := holds' r b src hb hx
      have hbv := h.validOut b (List.mem_of_getElem? hb)
      by_contra hlt
      have hpos : 0 < nb * b.points.card := by omega
      have hnb : 0 < nb := Nat.pos_of_ne_zero fun e => by simp [e] at hpos
      have hcp : 0 < b.points.card := Nat.pos_of_ne_zero fun e => by simp [e] at hpos
      obtain ⟨p, hp, ho⟩ := Box.offset_surj hbv (a := b.points.card - 1) (by omega) (by rw [Box.count_eq_card]; omega)
      have hrd := hH (nb - 1) (by omega) p hp
      have := (rd_some_iff.1 ⟨_, hrd⟩).2
      rw [ho] at this
      have e : (((nb - 1 : Nat) : Int) * b.points.card + (b.points.card - 1)) = nb * b.points.card - 1 := by
        rw [Nat.cast_sub (by omega)]; push_cast; ring
      rw [e] at this
      have h2 : (src.length : Int) < nb * b.points.card := by exact_mod_cast (by omega : src.length < nb * b.points.card)
      omega, by
      intro r b dst hb hx
      rw [List.getElem?_map, Option.map_eq_some_iff] at hx
      obtain ⟨m, hm, rfl⟩ := hx
      exact hdst' r b m hb hm, holds'⟩ hws''
  refine ⟨dsts', e2, ?_⟩
  intro r a m ha hm
  have hrl : r < (current shs' (mems'.map Arrays.src) dsts').length := by
    rw [D2.1]; exact (List.getElem?_eq_some_iff.1 ha).1
  refine ⟨_, List.getElem?_eq_getElem hrl, ?_⟩
  intro i h0 h1
  exact HoldsBatch.eq_below (h.validIn a (List.mem_of_getElem? ha)) (D2.2 r a _ ha (List.getElem?_eq_getElem hrl))
    (hG r a m.src ha (by rw [List.getElem?_map, hm]; rfl)) h0 h1

/-! ## C29 -/

theorem holds_of_empty {b : Box} (h : ∀ p : A3 Int, p ∉ b) {nb : Nat} {mem : List α} {G : Nat → A3 Int → α} :
    HoldsBatch b nb mem G := fun _ _ p hp => absurd hp (h p)

/-- **C29.** On a rank where no operation is set up, data in the old layout is in the new layout (and the other way
round); on a rank with only a local transposition the two boxes have the same indexes and no message is exchanged, and
on all ranks alike the old and new boxes are the same up to the order. -/
theorem C29_nothing_needed (h : Redistribution bin bout w) (alg : Alg) {shs : List (Option Shaper)}
    (hs : shapersOf alg bin bout = .ok shs) {r : Nat} {a b : Box} {sh : Option Shaper} (ha : bin[r]? = some a)
    (hb : bout[r]? = some b) (hsh : shs[r]? = some sh) :
    (sh = none → ∀ {α : Type} (nb : Nat) (mem : List α) (G : Nat → A3 Int → α), HoldsBatch a nb mem G ↔ HoldsBatch b nb mem G) ∧
    (∀ plan, sh = some (.transpose plan) → a.points = b.points ∧
      ∀ (q : Nat) c d, bin[q]? = some c → bout[q]? = some d → c.points = d.points) := by
  have hr := (List.getElem?_eq_some_iff.1 ha).1
  have eA : boxAt bin r = a := by
    have := boxAt_get hr
    rw [ha] at this; exact (Option.some.inj this).symm
  have eB : boxAt bout r = b := by
    have := boxAt_get (l := bout) (r := r) (by rw [h.length]; exact hr)
    rw [hb] at this; exact (Option.some.inj this).symm
  rcases shapersOf_cases h alg with ⟨hm, e⟩ | ⟨hm, g, hg, e⟩
  · rw [hs] at e
    rw [Except.ok.inj e, List.getElem?_map, List.getElem?_range hr] at hsh
    have hsh' : matchShaper bin bout r = sh := Option.some.inj hsh
    have bounds := boxesMatch_get hm hr
    rw [eA, eB] at bounds
    refine ⟨?_, ?_⟩
    · rintro rfl α nb mem G
      unfold matchShaper at hsh'
      by_cases hd : directOf bin bout = true
      · have ho : ∀ p : A3 Int, p ∈ a → p ∈ b → a.order = b.order := fun p h1 h2 =>
          (h.setup rfl).same hd a (List.mem_of_getElem? ha) b (List.mem_of_getElem? hb) ⟨p, h1, h2⟩
        constructor
        · exact HoldsBatch.congr bounds.1 bounds.2 fun ⟨p, hp⟩ => ho p hp ((mem_congr_bounds bounds.1 bounds.2 p).1 hp)
        · exact HoldsBatch.congr bounds.1.symm bounds.2.symm fun ⟨p, hp⟩ =>
            (ho p ((mem_congr_bounds bounds.1 bounds.2 p).2 hp) hp).symm
      · rw [if_neg hd] at hsh'
        split at hsh'
        · rename_i he
          have hb' : ∀ p : A3 Int, p ∉ b := by
            intro p hp
            have : p ∈ (boxAt bout r).collide (boxAt bin r) := by
              rw [Box.mem_collide, eA, eB]
              exact ⟨hp, (mem_congr_bounds bounds.1 bounds.2 p).2 hp⟩
            rw [Box.empty_false_of_mem this] at he
            simp at he
          have ha' : ∀ p : A3 Int, p ∉ a := fun p hp => hb' p ((mem_congr_bounds bounds.1 bounds.2 p).1 hp)
          exact ⟨fun _ => holds_of_empty hb', fun _ => holds_of_empty ha'⟩
        · simp at hsh'
    · intro plan _
      have all : ∀ (q : Nat) c d, bin[q]? = some c → bout[q]? = some d → c.points = d.points := by
        intro q c d hc hd
        have hq := (List.getElem?_eq_some_iff.1 hc).1
        have bd := boxesMatch_get hm hq
        have e1 := boxAt_get hq
        have e2 := boxAt_get (l := bout) (r := q) (by rw [h.length]; exact hq)
        rw [hc] at e1; rw [hd] at e2
        rw [← Option.some.inj e1, ← Option.some.inj e2] at bd
        ext p
        rw [Box.mem_points, Box.mem_points, mem_congr_bounds bd.1 bd.2]
      exact ⟨all r a b ha hb, all⟩
  · rw [hs] at e
    rw [Except.ok.inj e, List.getElem?_map, List.getElem?_range hr] at hsh
    have hsh' : commShaper alg (directOf bin bout) bin bout g r = sh := Option.some.inj hsh
    refine ⟨?_, ?_⟩
    · rintro rfl α nb mem G
      have hgr : g r = [] := by
        unfold commShaper objV objA at hsh'
        by_contra hgr
        cases alg <;> simp [hgr] at hsh'
      obtain ⟨h1, h2⟩ := no_group h hg hr hgr
      rw [eA] at h1; rw [eB] at h2
      exact ⟨fun _ => holds_of_empty h2, fun _ => holds_of_empty h1⟩
    · rintro plan rfl
      exfalso
      unfold commShaper at hsh'
      cases alg <;> simp at hsh'

/-- **C29**, the transposition: from the old layout to the new one by one local pass, in place or not. -/
theorem C29_transpose (h : Redistribution bin bout w) (alg : Alg) {shs : List (Option Shaper)}
    (hs : shapersOf alg bin bout = .ok shs) {r : Nat} {a b : Box} {plan : PackPlan} (ha : bin[r]? = some a)
    (hb : bout[r]? = some b) (hsh : shs[r]? = some (some (.transpose plan))) {stride : Nat} (hstr : 0 < stride) (nb : Nat)
    (inplace : Bool) {m : Arrays α} {G : Nat → A3 Int → α} (hsrc : HoldsBatch a nb m.src G)
    (hsl : nb * a.points.card ≤ m.src.length) (hdl : nb * b.points.card ≤ m.dst.length)
    (hws : nb * (Shaper.transpose plan).sizeWorkspace ≤ m.ws.length) :
    ∃ d, transposeLocal stride nb plan inplace m = .ok d ∧ HoldsBatch b nb d G := by
  have hr := (List.getElem?_eq_some_iff.1 ha).1
  have eA : boxAt bin r = a := by
    have := boxAt_get hr
    rw [ha] at this; exact (Option.some.inj this).symm
  have eB : boxAt bout r = b := by
    have := boxAt_get (l := bout) (r := r) (by rw [h.length]; exact hr)
    rw [hb] at this; exact (Option.some.inj this).symm
  rcases shapersOf_cases h alg with ⟨hm, e⟩ | ⟨hm, g, hg, e⟩
  · rw [hs] at e
    rw [Except.ok.inj e, List.getElem?_map, List.getElem?_range hr] at hsh
    have hsh' : matchShaper bin bout r = some (.transpose plan) := Option.some.inj hsh
    have bounds := boxesMatch_get hm hr
    rw [eA, eB] at bounds
    unfold matchShaper at hsh'
    split at hsh'
    · simp at hsh'
    · split at hsh'
      · simp at hsh'
      · rename_i he
        rw [eA, eB] at hsh' he
        obtain rfl : _ = plan := Shaper.transpose.inj (Option.some.inj hsh')
        have hsl' : nb * a.count ≤ m.src.length := by rw [Box.count_eq_card]; exact_mod_cast hsl
        have hdl' : nb * b.count ≤ m.dst.length := by rw [Box.count_eq_card]; exact_mod_cast hdl
        obtain ⟨d, h1, -, h2, -⟩ := transposeLocal_ok (h.validIn a (List.mem_of_getElem? ha))
          (h.validOut b (List.mem_of_getElem? hb)) bounds.1.symm bounds.2.symm (by simpa using he) hstr (inplace := inplace)
          hsrc hsl' hdl' hws
        exact ⟨d, h1, h2⟩
  · rw [hs] at e
    rw [Except.ok.inj e, List.getElem?_map, List.getElem?_range hr] at hsh
    have hsh' : commShaper alg (directOf bin bout) bin bout g r = some (.transpose plan) := Option.some.inj hsh
    unfold commShaper at hsh'
    cases alg <;> simp at hsh'

/-! ## C30 -/

/-- The accesses of one rank during a reshape with communication stay in bounds: `[0, inSize)` of the input,
`[0, outSize)` of the output, `[0, mid)` of the workspace for outgoing messages and `[mid, ws)` for incoming ones; the
areas of different messages do not overlap. -/
structure StaysInBounds (job : Job) (inSize outSize ws : Int) : Prop where
  mid : ∃ mid : Int, 0 ≤ mid ∧ mid ≤ ws ∧
    (∀ m ∈ job.packs, 0 ≤ m.1 ∧ m.1 < mid ∧ 0 ≤ m.2 ∧ m.2 < inSize) ∧
    (∀ m ∈ job.sends, 0 ≤ m.len ∧ 0 ≤ m.addr ∧ m.addr + m.len ≤ mid) ∧
    (∀ m ∈ job.recvs, 0 ≤ m.len ∧ mid ≤ m.addr ∧ m.addr + m.len ≤ ws) ∧
    (∀ m ∈ job.selfPacks, mid ≤ m.1 ∧ m.1 < ws ∧ 0 ≤ m.2 ∧ m.2 < inSize) ∧
    (∀ m ∈ job.unpacks, mid ≤ m.2 ∧ m.2 < ws ∧ 0 ≤ m.1 ∧ m.1 < outSize)
  sends : ∀ m ∈ job.sends, ∀ m' ∈ job.sends, m ≠ m' → m.addr + m.len ≤ m'.addr ∨ m'.addr + m'.len ≤ m.addr
  recvs : ∀ m ∈ job.recvs, ∀ m' ∈ job.recvs, m ≠ m' → m.addr + m.len ≤ m'.addr ∨ m'.addr + m'.len ≤ m.addr
  own : ∀ m ∈ job.recvs, ∀ x ∈ job.selfPacks, x.1 < m.addr ∨ m.addr + m.len ≤ x.1

theorem Good.staysInBounds {n nb : Nat} {I O : Nat → Box} {W : Nat → Int} {jobs : List Job} {link : Nat → Nat → Prop}
    {own : Nat → Prop} {S R e : Nat → Nat → Int} {mid : Nat → Int} (g : Good n nb I O W jobs link own S R e mid)
    (hI : ∀ r, r < n → IsOrder (I r).order) (hO : ∀ r, r < n → IsOrder (O r).order) {r : Nat} (hr : r < n) {job : Job}
    (hj : jobs[r]? = some job) : StaysInBounds job (nb * (I r).count) (nb * (O r).count) (W r) := by
  have he : ∀ s q, link s q ∨ s = q ∧ own s → (0 : Int) ≤ nb * e s q := fun s q hl =>
    mul_nonneg (by positivity) (le_trans (Box.count_nonneg _) (g.stride s q hl))
  refine ⟨⟨mid r, (g.midIn r hr).1, (g.midIn r hr).2, ?_, ?_, ?_, ?_, ?_⟩, ?_, ?_, ?_⟩
  · intro m hm
    obtain ⟨q, j, p, hl, hjn, h1, h2, rfl⟩ := (g.packs r job hj m).1 hm
    have hx := entry_range (g.stride r q (Or.inl hl)) (msgOff_range (hI r hr) h1 h2) hjn
    have hy := mul_count_le hjn (Box.offset_range (hI r hr) h1)
    have hz := g.sendIn r q hl
    dsimp only
    omega
  · intro m hm
    obtain ⟨q, hl, rfl⟩ := (g.sends r job hj m).1 hm
    exact ⟨he r q (Or.inl hl), g.sendIn r q hl⟩
  · intro m hm
    obtain ⟨q, hl, rfl⟩ := (g.recvs r job hj m).1 hm
    exact ⟨he q r (Or.inl hl), g.recvIn q r (Or.inl hl)⟩
  · intro m hm
    obtain ⟨j, p, hl, hjn, h1, h2, rfl⟩ := (g.selfPacks r job hj m).1 hm
    have hx := entry_range (g.stride r r (Or.inr ⟨rfl, hl⟩)) (msgOff_range (hI r hr) h1 h2) hjn
    have hy := mul_count_le hjn (Box.offset_range (hI r hr) h1)
    have hz := g.recvIn r r (Or.inr ⟨rfl, hl⟩)
    dsimp only
    omega
  · intro m hm
    obtain ⟨s, j, p, hs, hjn, h1, h2, rfl⟩ := (g.unpacks r job hj m).1 hm
    have hl := g.cover s r hs hr (msgCount_pos h1 h2)
    have hx := entry_range (g.stride s r hl) (msgOff_range (hI s hs) h1 h2) hjn
    have hy := mul_count_le hjn (Box.offset_range (hO r hr) h2)
    have hz := g.recvIn s r hl
    dsimp only
    omega
  · intro m hm m' hm' hne
    obtain ⟨q, hl, rfl⟩ := (g.sends r job hj m).1 hm
    obtain ⟨q', hl', rfl⟩ := (g.sends r job hj m').1 hm'
    exact g.sendApart r q q' hl hl' fun e => hne (by rw [e])
  · intro m hm m' hm' hne
    obtain ⟨q, hl, rfl⟩ := (g.recvs r job hj m).1 hm
    obtain ⟨q', hl', rfl⟩ := (g.recvs r job hj m').1 hm'
    exact g.recvApart q q' r (Or.inl hl) (Or.inl hl') fun e => hne (by rw [e])
  · intro m hm x hx
    obtain ⟨q, hl, rfl⟩ := (g.recvs r job hj m).1 hm
    obtain ⟨j, p, ho, hjn, h1, h2, rfl⟩ := (g.selfPacks r job hj x).1 hx
    have hx := entry_range (g.stride r r (Or.inr ⟨rfl, ho⟩)) (msgOff_range (hI r hr) h1 h2) hjn
    have := g.recvApart q r r (Or.inl hl) (Or.inr ⟨rfl, ho⟩) fun e => g.notBoth r (by rw [e] at hl; exact hl) ho
    dsimp only
    omega

/-- **C30**, communication: the messages and the packing and unpacking loops of every rank stay in the arrays of the
documented sizes. -/
theorem C30_in_bounds (h : Redistribution bin bout w) (alg : Alg) {shs : List (Option Shaper)}
    (hs : shapersOf alg bin bout = .ok shs) {stride : Nat} (hstr : 0 < stride) (nb : Nat) {done : Nat → List Nat}
    (hdone : ArrivalOrder bin bout done) {r : Nat} {a b : Box} {sh : Shaper} (ha : bin[r]? = some a) (hb : bout[r]? = some b)
    (hsh : shs[r]? = some (some sh)) :
    StaysInBounds (Shaper.job stride nb (done r) (some sh)) (nb * a.points.card) (nb * b.points.card)
      (nb * sh.sizeWorkspace) := by
  have hr := (List.getElem?_eq_some_iff.1 ha).1
  have eA : boxAt bin r = a := by
    have := boxAt_get hr
    rw [ha] at this; exact (Option.some.inj this).symm
  have eB : boxAt bout r = b := by
    have := boxAt_get (l := bout) (r := r) (by rw [h.length]; exact hr)
    rw [hb] at this; exact (Option.some.inj this).symm
  rw [← Box.count_eq_card, ← Box.count_eq_card]
  rcases shapersOf_cases h alg with ⟨hm, e⟩ | ⟨hm, g, hg, e⟩
  · rw [hs] at e
    rw [Except.ok.inj e, List.getElem?_map, List.getElem?_range hr] at hsh
    have hsh' : matchShaper bin bout r = some sh := Option.some.inj hsh
    have hcb := Box.count_nonneg b
    unfold matchShaper at hsh'
    split at hsh'
    · simp at hsh'
    · split at hsh'
      · simp at hsh'
      · rename_i he
        obtain rfl := Option.some.inj hsh'
        have hc : (transposePlan (boxAt bout r) ((boxAt bout r).collide (boxAt bin r)) (boxAt bin r).order).size 0 *
          (transposePlan (boxAt bout r) ((boxAt bout r).collide (boxAt bin r)) (boxAt bin r).order).size 1 *
          (transposePlan (boxAt bout r) ((boxAt bout r).collide (boxAt bin r)) (boxAt bin r).order).size 2 =
            ((boxAt bout r).collide (boxAt bin r)).count := by
          rw [Box.count_osize (b := (boxAt bout r).collide (boxAt bin r)) (by
              have bounds := boxesMatch_get hm hr
              rw [collide_same bounds.1.symm bounds.2.symm (by simpa using he)]
              exact h.validOut _ (boxAt_mem (by rw [h.length]; exact hr)))
            (by simpa using he)]
          simp only [transposePlan, A3.get_zero, A3.get_one, A3.get_two]
          ring
        have h0 := Box.count_nonneg ((boxAt bout r).collide (boxAt bin r))
        refine ⟨⟨0, le_rfl, ?_, ?_, ?_, ?_, ?_, ?_⟩, ?_, ?_, ?_⟩
        · unfold Shaper.sizeWorkspace
          dsimp only
          rw [hc]
          positivity
        all_goals simp [Shaper.job, Job.idle]
  · rw [hs] at e
    rw [Except.ok.inj e, List.getElem?_map, List.getElem?_range hr] at hsh
    have hsh' : commShaper alg (directOf bin bout) bin bout g r = some sh := Option.some.inj hsh
    obtain ⟨link, own, S, R, e', mid, hgood⟩ := comm_good h alg hg hstr nb hdone
    have := hgood.staysInBounds (fun q hq => h.validIn _ (boxAt_mem hq))
      (fun q hq => h.validOut _ (boxAt_mem (by rw [h.length]; exact hq))) hr
      (by rw [List.getElem?_map, List.getElem?_range hr]; rfl)
    dsimp only at this
    rw [eA, eB, hsh'] at this
    exact this

/-- **C30**, all kinds of reshape objects: with arrays of exactly the documented sizes (also for in-place use with one
array of the larger size) no access is out of bounds. -/
theorem C30_exact_sizes (h : Redistribution bin bout w) (alg : Alg) {shs : List (Option Shaper)}
    (hs : shapersOf alg bin bout = .ok shs) {stride : Nat} (hstr : 0 < stride) (nb : Nat) {done : Nat → List Nat}
    (hdone : ArrivalOrder bin bout done) (inplace : Nat → Bool) [Nonempty α] {mems : List (Arrays α)} (hlen : mems.length = bin.length)
    (hsz : ∀ (r : Nat) a b m, bin[r]? = some a → bout[r]? = some b → mems[r]? = some m →
      m.src.length = nb * a.points.card ∧ m.dst.length = nb * b.points.card)
    (hws : ∀ (r : Nat) sh m, shs[r]? = some sh → mems[r]? = some m →
      (m.ws.length : Int) = nb * (match sh with
        | none => 0
        | some s => s.sizeWorkspace)) :
    ∃ dsts, reshapeAll stride nb done inplace shs mems = .ok dsts := by
  obtain ⟨d, hd, -⟩ := C27_algorithm_independent h alg alg hs hs nb hstr hstr hdone hdone inplace inplace hlen rfl rfl
    (fun r a b m ha hb hm => ⟨(hsz r a b m ha hb hm).1.ge, (hsz r a b m ha hb hm).2.ge⟩)
    (fun r sh m hsh hm => (hws r _ m hsh hm).ge) (fun r sh m hsh hm => (hws r _ m hsh hm).ge)
  exact ⟨d, hd⟩

/-! ## A concrete run -/

theorem ex_arrival : ArrivalOrder exA exB fun r => (List.range (Senders exA exB r).card).reverse :=
  fun _ _ => List.reverse_perm _

example : MovesEveryIndex .alltoallv exA exB := C24_alltoallv ex_redistribution

/-- The destinations of the example after a reshape with each of the algorithms; the messages of the point-to-point
algorithm complete in reverse order. -/
def exResult (alg : Alg) (bout : List Box) : Res (List (List Nat)) := do
  let shs ← shapersOf alg exA bout
  reshapeAll 16 1 (fun _ => [1, 0]) (fun _ => false) shs exArrays

/-- A transposing reshape, (0,1,2) to (2,0,1). -/
example : ∀ alg ∈ [Alg.alltoall, .alltoallv, .p2p, .p2pPlined], exResult alg exB =
    .ok [[0, 1, 2, 3, 4, 5, 6, 7], [8, 9, 10, 11, 12, 13, 14, 15], [16, 17, 18, 19, 20, 21, 22, 23]] := by decide +kernel

end Verif
