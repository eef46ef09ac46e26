import Verif.GoodA
import Verif.GoodP

/-!
# Reshapes on all ranks
-/

namespace Verif
variable {α : Type}

theorem Tiles.boxAt_unique {l : List Box} {w : Box} (h : Tiles l w) {i j : Nat} (hi : i < l.length) (hj : j < l.length)
    {p : A3 Int} (hpi : p ∈ boxAt l i) (hpj : p ∈ boxAt l j) : i = j := by
  have e1 : boxAt l i = l[i] := by
    have := boxAt_get hi
    rw [List.getElem?_eq_getElem hi] at this
    exact (Option.some.inj this).symm
  have e2 : boxAt l j = l[j] := by
    have := boxAt_get hj
    rw [List.getElem?_eq_getElem hj] at this
    exact (Option.some.inj this).symm
  rw [e1] at hpi
  rw [e2] at hpj
  exact h.unique hi hj hpi hpj

theorem Tiles.boxAt_exists {l : List Box} {w : Box} (h : Tiles l w) {p : A3 Int} (hp : p ∈ w) :
    ∃ i, i < l.length ∧ p ∈ boxAt l i := by
  obtain ⟨b, hb, hpb⟩ := h.exists_box hp
  obtain ⟨i, hi⟩ := List.mem_iff_getElem?.1 hb
  have hlt := (List.getElem?_eq_some_iff.1 hi).1
  refine ⟨i, hlt, ?_⟩
  rw [boxAt_get hlt] at hi
  rw [Option.some.inj hi]; exact hpb

variable {bin bout : List Box} {w : Box}

theorem orderedSameAs_iff {a b : Box} : a.orderedSameAs b = true ↔ a.order = b.order := by
  obtain ⟨la, ha, oa⟩ := a
  obtain ⟨lb, hb, ob⟩ := b
  obtain ⟨x, y, z⟩ := oa
  obtain ⟨x', y', z'⟩ := ob
  simp [Box.orderedSameAs, A3.get, and_assoc]

/-- Are the orders of the two sides the same? -/
def directOf (bin bout : List Box) : Bool := (boxAt bin 0).orderedSameAs (boxAt bout 0)

theorem Redistribution.validIn (h : Redistribution bin bout w) : ∀ b ∈ bin, IsOrder b.order :=
  let ⟨_, _, _, _, ho⟩ := h.orderIn; ho

theorem Redistribution.validOut (h : Redistribution bin bout w) : ∀ b ∈ bout, IsOrder b.order :=
  let ⟨_, _, _, _, ho⟩ := h.orderOut; ho

theorem Redistribution.setup (h : Redistribution bin bout w) {direct : Bool} (hd : direct = directOf bin bout) :
    Setup direct bin bout := by
  refine ⟨h.length, h.validIn, h.validOut, ?_, ?_, ?_⟩
  · intro hdt a ha b hb ⟨p, hpa, hpb⟩
    obtain ⟨o, -, ho, ho0⟩ := h.orderIn
    obtain ⟨o', -, ho', ho0'⟩ := h.orderOut
    rw [ho a ha (.inr ⟨p, hpa⟩), ho' b hb (.inr ⟨p, hpb⟩)]
    rw [hd, directOf, orderedSameAs_iff] at hdt
    have hn : 0 < bin.length := List.length_pos_iff.2 h.ranks
    have e1 := boxAt_get hn
    have e2 := boxAt_get (l := bout) (r := 0) (by rw [h.length]; exact hn)
    rw [← List.head?_eq_getElem?] at e1 e2
    rw [← ho0.1 _ e1, ← ho0'.1 _ e2, hdt]
  · intro s s' hs hs' p hp hp'
    exact h.tilesIn.boxAt_unique hs hs' hp hp'
  · intro s s' hs hs' p hp hp'
    exact h.tilesOut.boxAt_unique (by rw [h.length]; exact hs) (by rw [h.length]; exact hs') hp hp'

theorem Redistribution.cover (h : Redistribution bin bout w) {r : Nat} (hr : r < bin.length) {p : A3 Int}
    (hp : p ∈ boxAt bout r) : ∃ s, s < bin.length ∧ p ∈ boxAt bin s :=
  h.tilesIn.boxAt_exists (h.tilesOut.mem_world (boxAt_mem (by rw [h.length]; exact hr)) hp)

theorem Redistribution.cover' (h : Redistribution bin bout w) {r : Nat} (hr : r < bin.length) {p : A3 Int}
    (hp : p ∈ boxAt bin r) : ∃ s, s < bin.length ∧ p ∈ boxAt bout s := by
  rw [← h.length]
  exact h.tilesOut.boxAt_exists (h.tilesIn.mem_world (boxAt_mem hr) hp)

/-- A rank that is in no group has no data. -/
theorem no_group (h : Redistribution bin bout w) {g : Nat → List Nat} (hg : GroupFacts bin bout g) {r : Nat}
    (hr : r < bin.length) (hn : g r = []) : (∀ p : A3 Int, p ∉ boxAt bin r) ∧ ∀ p : A3 Int, p ∉ boxAt bout r := by
  constructor
  · intro p hp
    obtain ⟨s, hs, hp'⟩ := h.cover' hr hp
    have := hg.nbr r s hr (cnt_pos_adj h.length hr hs (msgCount_pos hp hp'))
    rw [hn] at this; simp at this
  · intro p hp
    obtain ⟨s, hs, hp'⟩ := h.cover hr hp
    have := hg.nbr r s hr (cnt_pos_adj h.length hs hr (msgCount_pos hp' hp)).symm
    rw [hn] at this; simp at this

theorem count_zero {b : Box} (h : ∀ p : A3 Int, p ∉ b) : b.count = 0 := by
  have h1 := Box.count_nonneg b
  by_contra hc
  obtain ⟨p, hp⟩ := Box.empty_false_iff_mem.1 (Box.count_pos_iff.1 (by omega : 0 < b.count))
  exact h p hp

theorem requestsP_card {direct : Bool} (h : bout.length = bin.length) {r : Nat} (hr : r < bin.length) :
    requestsP (objP direct bin bout r) = (Senders bin bout r).card := by
  unfold requestsP objP
  dsimp only
  rw [← List.length_map (f := Entry.proc), ← List.toFinset_card_of_nodup (dropSelf_nodup (recv_nodup hr))]
  congr 1
  ext q
  rw [List.mem_toFinset, List.mem_map]
  unfold Senders
  rw [Finset.mem_filter, Finset.mem_range]
  constructor
  · rintro ⟨e, he, rfl⟩
    obtain ⟨q, hq, hne, hc, rfl⟩ := (mem_dropRecv h hr).1 he
    refine ⟨hq, hne, boxAt bin q, boxAt_get hq, boxAt bout r, getO h hr, ?_⟩
    obtain ⟨p, hp⟩ := Box.empty_false_iff_mem.1 (cnt_pos.1 hc)
    rw [Box.mem_collide] at hp
    exact ⟨p, by simpa using hp⟩
  · rintro ⟨hq, hne, a, ha, b, hb, p, hp⟩
    rw [boxAt_get hq] at ha
    rw [getO h hr] at hb
    obtain rfl := Option.some.inj ha
    obtain rfl := Option.some.inj hb
    rw [Finset.mem_inter, Box.mem_points, Box.mem_points] at hp
    exact ⟨_, (mem_dropRecv h hr).2 ⟨q, hq, hne, msgCount_pos hp.1 hp.2, rfl⟩, rfl⟩

/-! ## The objects -/

/-- The communicating reshape object on rank `r`. -/
def commShaper (alg : Alg) (direct : Bool) (bin bout : List Box) (g : Nat → List Nat) (r : Nat) : Option Shaper :=
  match alg with
  | .alltoallv => (objV direct bin bout g r).map (.alltoallv direct)
  | .alltoall => (objA direct bin bout g r).map (.alltoall direct)
  | .p2p | .p2pPlined => some (.p2p direct (objP direct bin bout r))

theorem makeReshape_comm (h : Redistribution bin bout w) (hm : boxesMatch bin bout = false) (alg : Alg) :
    ∃ g, GroupFacts bin bout g ∧ ∀ r, r < bin.length →
      makeReshape alg bin bout r = .ok (commShaper alg (directOf bin bout) bin bout g r) := by
  have hn : 0 < bin.length := List.length_pos_iff.2 h.ranks
  have e1 := boxAt_get hn
  have e2 := boxAt_get (l := bout) (r := 0) (by rw [h.length]; exact hn)
  rw [← List.head?_eq_getElem?] at e1 e2
  have hs := h.setup rfl
  have hsimp : ∀ r, makeReshape alg bin bout r = match alg with
      | .alltoallv => do
        let o ← makeAllToAllv (directOf bin bout) bin bout r
        .ok (o.map (.alltoallv (directOf bin bout)))
      | .alltoall => do
        let o ← makeAllToAll (directOf bin bout) bin bout r
        .ok (o.map (.alltoall (directOf bin bout)))
      | _ => (do
        let o ← makePointToPoint (directOf bin bout) bin bout r
        .ok (some (.p2p (directOf bin bout) o))) := by
    intro r
    unfold makeReshape
    rw [e1, e2]
    simp only [hm]
    cases alg <;> rfl
  obtain ⟨gv, hgv, hv⟩ := groupsV hs.len
  obtain ⟨ga, hga, ha⟩ := groupsA hs.len
  cases alg with
  | alltoallv =>
    refine ⟨gv, hgv, fun r hr => ?_⟩
    rw [hsimp]
    dsimp only
    rw [hv r hr]; rfl
  | alltoall =>
    refine ⟨ga, hga, fun r hr => ?_⟩
    rw [hsimp]
    dsimp only
    rw [ha r hr]; rfl
  | p2p =>
    refine ⟨gv, hgv, fun r hr => ?_⟩
    rw [hsimp]
    dsimp only
    rw [makeP hs.len hr]; rfl
  | p2pPlined =>
    refine ⟨gv, hgv, fun r hr => ?_⟩
    rw [hsimp]
    dsimp only
    rw [makeP hs.len hr]; rfl

theorem Good.congrW {n nb : Nat} {I O : Nat → Box} {W W' : Nat → Int} {jobs : List Job} {link : Nat → Nat → Prop}
    {own : Nat → Prop} {S R e : Nat → Nat → Int} {mid : Nat → Int} (g : Good n nb I O W jobs link own S R e mid)
    (h : ∀ r, r < n → W r = W' r) : Good n nb I O W' jobs link own S R e mid :=
  { g with
    recvIn := by
      intro s r hsr
      rw [← h r (by
        rcases hsr with hl | ⟨rfl, ho⟩
        · exact (g.linkLt s r hl).2
        · exact g.selfLt s ho)]
      exact g.recvIn s r hsr
    midIn := by
      intro s hs
      rw [← h s hs]
      exact g.midIn s hs }

/-- The workspace of a possibly absent reshape. -/
def wsOf : Option Shaper → Int
  | none => 0
  | some s => s.sizeWorkspace

/-- All three algorithms have a sound message layout within their workspace. -/
theorem comm_good (h : Redistribution bin bout w) (alg : Alg) {g : Nat → List Nat} (hg : GroupFacts bin bout g)
    {stride : Nat} (hstr : 0 < stride) (nb : Nat) {done : Nat → List Nat} (hdone : ArrivalOrder bin bout done) :
    ∃ link own S R e mid, Good bin.length nb (boxAt bin) (boxAt bout)
      (fun r => nb * wsOf (commShaper alg (directOf bin bout) bin bout g r))
      ((List.range bin.length).map fun r => Shaper.job stride nb (done r) (commShaper alg (directOf bin bout) bin bout g r))
      link own S R e mid := by
  have hs := h.setup rfl
  have hP := goodP hs hstr nb done (by
      intro r hr
      rw [requestsP_card hs.len hr]
      exact hdone r hr)
  cases alg with
  | alltoallv =>
    have := goodV hs hg hstr nb
    have hj : (fun r => Shaper.job stride nb (done r) (commShaper .alltoallv (directOf bin bout) bin bout g r)) =
        jobV (directOf bin bout) bin bout g stride nb := by
      funext r
      unfold commShaper jobV
      dsimp only
      cases objV (directOf bin bout) bin bout g r <;> rfl
    rw [hj]
    refine ⟨_, _, _, _, _, _, this.congrW ?_⟩
    intro r hr
    unfold commShaper objV
    by_cases hgr : g r = []
    · obtain ⟨h1, h2⟩ := no_group h hg hr hgr
      rw [if_pos hgr, count_zero h1, count_zero h2]
      simp [wsOf]
    · rw [if_neg hgr]
      rfl
  | alltoall =>
    have := goodA hs hg hstr nb
    have hj : (fun r => Shaper.job stride nb (done r) (commShaper .alltoall (directOf bin bout) bin bout g r)) =
        jobA (directOf bin bout) bin bout g stride nb := by
      funext r
      unfold commShaper jobA
      dsimp only
      cases objA (directOf bin bout) bin bout g r <;> rfl
    rw [hj]
    refine ⟨_, _, _, _, _, _, this.congrW ?_⟩
    intro r hr
    unfold commShaper objA
    by_cases hgr : g r = []
    · rw [if_pos hgr, hgr]
      simp [wsOf]
    · rw [if_neg hgr]
      simp only [Option.map_some, wsOf, Shaper.sizeWorkspace, AllToAll.sizeWorkspace]
      rw [overlapA_send hs.len (fun q hq => hg.lt hr hq), List.length_map]
  | p2p => exact ⟨_, _, _, _, _, _, hP⟩
  | p2pPlined => exact ⟨_, _, _, _, _, _, hP⟩

/-! ## Equal boxes -/

theorem sameBounds_iff {a b : Box} : a.sameBounds b = true ↔ a.low = b.low ∧ a.high = b.high := by
  obtain ⟨⟨lx, ly, lz⟩, ⟨hx, hy, hz⟩, oa⟩ := a
  obtain ⟨⟨lx', ly', lz'⟩, ⟨hx', hy', hz'⟩, ob⟩ := b
  simp [Box.sameBounds, dims, A3.get]
  tauto

theorem boxesMatch_get : ∀ {l m : List Box}, boxesMatch l m = true → ∀ {r : Nat}, r < l.length →
    (boxAt l r).low = (boxAt m r).low ∧ (boxAt l r).high = (boxAt m r).high
  | [], [], _, r, hr => by simp at hr
  | [], _ :: _, h, _, _ => by simp [boxesMatch] at h
  | _ :: _, [], h, _, _ => by simp [boxesMatch] at h
  | a :: s, b :: t, h, r, hr => by
    simp only [boxesMatch, Bool.and_eq_true] at h
    cases r with
    | zero =>
      exact sameBounds_iff.1 h.1
    | succ r =>
      have := boxesMatch_get h.2 (r := r) (by simpa using hr)
      exact this

theorem mem_congr_bounds {a b : Box} (hl : a.low = b.low) (hh : a.high = b.high) (p : A3 Int) : p ∈ a ↔ p ∈ b := by
  show (∀ d, _) ↔ (∀ d, _)
  rw [hl, hh]

theorem offset_congr {a b : Box} (hl : a.low = b.low) (hh : a.high = b.high) (ho : a.order = b.order) (p : A3 Int) :
    a.offset p = b.offset p := by
  unfold Box.offset
  rw [hl, hh, ho]

theorem HoldsBatch.congr {a b : Box} (hl : a.low = b.low) (hh : a.high = b.high)
    (ho : (∃ p : A3 Int, p ∈ a) → a.order = b.order)
    {nb : Nat} {mem : List α} {G : Nat → A3 Int → α} (h : HoldsBatch a nb mem G) : HoldsBatch b nb mem G := by
  intro j hj p hp
  have hpa := (mem_congr_bounds hl hh p).2 hp
  have := h j hj p hpa
  have hc : a.points.card = b.points.card := by
    congr 1
    ext p
    rw [Box.mem_points, Box.mem_points, mem_congr_bounds hl hh]
  rwa [hc, offset_congr hl hh (ho ⟨p, hpa⟩)] at this

/-- The object made on a rank when the boxes are equal. -/
def matchShaper (bin bout : List Box) (r : Nat) : Option Shaper :=
  if directOf bin bout then none
  else if ((boxAt bout r).collide (boxAt bin r)).empty then none
  else some (.transpose (transposePlan (boxAt bout r) ((boxAt bout r).collide (boxAt bin r)) (boxAt bin r).order))

theorem makeReshape_match (h : Redistribution bin bout w) (hm : boxesMatch bin bout = true) (alg : Alg) {r : Nat}
    (hr : r < bin.length) : makeReshape alg bin bout r = .ok (matchShaper bin bout r) := by
  have hn : 0 < bin.length := List.length_pos_iff.2 h.ranks
  have e1 := boxAt_get hn
  have e2 := boxAt_get (l := bout) (r := 0) (by rw [h.length]; exact hn)
  rw [← List.head?_eq_getElem?] at e1 e2
  unfold makeReshape
  rw [e1, e2]
  simp only [hm, if_true]
  unfold matchShaper directOf
  split
  · rfl
  · rw [boxAt_get hr, boxAt_get (show r < bout.length by rw [h.length]; exact hr)]
    dsimp only
    have : overlapMapTranspose 0 (boxAt bout r) [boxAt bin r] =
        if ((boxAt bout r).collide (boxAt bin r)).empty then [] else
          [⟨0, overlapOffset (boxAt bout r) ((boxAt bout r).collide (boxAt bin r)), ((boxAt bout r).collide (boxAt bin r)).count,
            transposePlan (boxAt bout r) ((boxAt bout r).collide (boxAt bin r)) (boxAt bin r).order⟩] := by
      unfold overlapMapTranspose
      simp only [List.length_singleton, List.range_succ, List.range_zero, List.nil_append, Nat.mod_one, List.filterMap_cons,
        List.filterMap_nil, List.getElem?_cons_zero, Option.bind_some]
      split <;> split <;> simp_all
    rw [this]
    split <;> rfl

theorem collide_same {a b : Box} (hl : a.low = b.low) (hh : a.high = b.high) (hne : (a.collide b).empty = false) :
    a.collide b = a := by
  obtain ⟨h1, h2, h3⟩ := collide_bounds hne
  have e1 : (a.collide b).low = a.low := by
    apply A3.ext'
    intro d; rw [h2, ← hl, max_self]
  have e2 : (a.collide b).high = a.high := by
    apply A3.ext'
    intro d; rw [h3, ← hh, min_self]
  obtain ⟨l, u, o⟩ := a
  revert h1 e1 e2
  generalize (Box.mk l u o).collide b = c
  obtain ⟨l', u', o'⟩ := c
  intro h1 e1 e2
  dsimp only at h1 e1 e2
  rw [h1, e1, e2]

theorem mem_transposeMoves {i o : Box} (hio : IsOrder i.order) (hoo : IsOrder o.order) (hl : o.low = i.low)
    (hh : o.high = i.high) (hne : (o.collide i).empty = false) {stride : Nat} (hstr : 0 < stride) (data buf : Int)
    (m : Int × Int) : m ∈ unpackTranspose stride (transposePlan o (o.collide i) i.order) buf data ↔
      ∃ p : A3 Int, p ∈ i ∧ m = (data + o.offset p, buf + i.offset p) := by
  have h1 := mem_unpackWith (direct := false) hstr hio hoo (by simp) (by rw [Box.collide_empty_comm]; exact hne) data buf m
  simp only [Bool.false_eq_true, if_false, unpackWith] at h1
  have h0 : overlapOffset o (o.collide i) = 0 := by
    rw [overlapOffset_eq, collide_same hl hh hne, Box.offset_low]
  rw [h0, zero_add] at h1
  rw [h1]
  apply exists_congr; intro p
  have hpo := mem_congr_bounds hl hh p
  unfold msgOff
  rw [collide_same hl.symm hh.symm (by rw [Box.collide_empty_comm]; exact hne)]
  constructor
  · rintro ⟨h1, h2, h3⟩; exact ⟨h1, h3⟩
  · rintro ⟨h1, h3⟩; exact ⟨h1, hpo.2 h1, h3⟩

theorem transposeLocal_ok {i o : Box} (hio : IsOrder i.order) (hoo : IsOrder o.order) (hl : o.low = i.low)
    (hh : o.high = i.high) (hne : (o.collide i).empty = false) {stride : Nat} (hstr : 0 < stride) {nb : Nat} {inplace : Bool}
    {m : Arrays α} {G : Nat → A3 Int → α} (hsrc : HoldsBatch i nb m.src G) (hsl : nb * i.count ≤ m.src.length)
    (hdst : nb * o.count ≤ m.dst.length)
    (hws : nb * (Shaper.transpose (transposePlan o (o.collide i) i.order)).sizeWorkspace ≤ m.ws.length) :
    ∃ d, transposeLocal stride nb (transposePlan o (o.collide i) i.order) inplace m = .ok d ∧
      d.length = m.dst.length ∧ HoldsBatch o nb d G ∧ ∀ a, nb * o.count ≤ a → rd d a = rd m.dst a := by
  have hco := collide_same hl hh hne
  have hcnt : i.count = o.count := Box.count_congr fun p => (mem_congr_bounds hl hh p).symm
  have hone : o.empty = false := by rw [hco] at hne; exact hne
  have hsz : (transposePlan o (o.collide i) i.order).size 0 * (transposePlan o (o.collide i) i.order).size 1 *
      (transposePlan o (o.collide i) i.order).size 2 = o.count := by
    rw [Box.count_osize hoo hone, hco]
    simp only [transposePlan, A3.get_zero, A3.get_one, A3.get_two]
    ring
  have hIc : (i.points.card : Int) = i.count := (Box.count_eq_card _).symm
  have hOc : (o.points.card : Int) = o.count := (Box.count_eq_card _).symm
  have hc0 := Box.count_nonneg o
  have hnb : (0 : Int) ≤ nb := by positivity
  have hnc : 0 ≤ nb * o.count := mul_nonneg hnb hc0
  unfold Shaper.sizeWorkspace at hws
  dsimp only at hws
  rw [hsz] at hws
  have hmem : ∀ x, x ∈ ((List.range nb).flatMap fun (j : Nat) => unpackTranspose stride (transposePlan o (o.collide i) i.order)
      (j * o.count) (j * o.count)) ↔ ∃ (j : Nat) (p : A3 Int), j < nb ∧ p ∈ i ∧
        x = (j * o.count + o.offset p, j * o.count + i.offset p) := by
    intro x
    simp only [List.mem_flatMap, List.mem_range, mem_transposeMoves hio hoo hl hh hne hstr]
    constructor
    · rintro ⟨j, hj, p, hp, hx⟩; exact ⟨j, p, hj, hp, hx⟩
    · rintro ⟨j, p, hj, hp, hx⟩; exact ⟨j, hj, p, hp, hx⟩
  have key : ∀ src : List α, nb * o.count ≤ src.length → (∀ a, a < nb * o.count → rd src a = rd m.src a) →
      ∃ d, copyMoves ((List.range nb).flatMap fun (j : Nat) => unpackTranspose stride (transposePlan o (o.collide i) i.order)
        (j * o.count) (j * o.count)) src m.dst = .ok d ∧
      d.length = m.dst.length ∧ HoldsBatch o nb d G ∧ ∀ a, nb * o.count ≤ a → rd d a = rd m.dst a := by
    intro src hsl' hrd
    obtain ⟨d, h1, h2, h3, h4⟩ := copyMoves_ok (moves := (List.range nb).flatMap fun (j : Nat) =>
        unpackTranspose stride (transposePlan o (o.collide i) i.order) (j * o.count) (j * o.count)) (src := src) (dst := m.dst) (by
      intro x hx
      obtain ⟨j, p, hj, hp, rfl⟩ := (hmem x).1 hx
      have r1 := Box.offset_range hio hp
      have r2 := Box.offset_range hoo ((mem_congr_bounds hl hh p).2 hp)
      rw [hcnt] at r1
      have q1 := mul_count_le hj r1
      have q2 := mul_count_le hj r2
      dsimp only
      omega) (by
      intro x hx y hy heq
      obtain ⟨j, p, hj, hp, rfl⟩ := (hmem x).1 hx
      obtain ⟨j', p', hj', hp', rfl⟩ := (hmem y).1 hy
      have r2 := Box.offset_range hoo ((mem_congr_bounds hl hh p).2 hp)
      have r2' := Box.offset_range hoo ((mem_congr_bounds hl hh p').2 hp')
      dsimp only at heq ⊢
      obtain ⟨e1, e2⟩ := entry_inj (nb := nb) (A := 0) (j := j) (j' := j') (le_refl o.count) r2 r2' (by rw [zero_add, zero_add]; exact heq) hj
      have := Box.offset_inj hoo ((mem_congr_bounds hl hh p).2 hp) ((mem_congr_bounds hl hh p').2 hp') e2
      rw [e1, this])
    refine ⟨d, h1, h2, ?_, ?_⟩
    · intro j hj p hp
      have hpi := (mem_congr_bounds hl hh p).1 hp
      rw [hOc, h3 _ ((hmem _).2 ⟨j, p, hj, hpi, rfl⟩)]
      have r1 := Box.offset_range hio hpi
      rw [hcnt] at r1
      have q1 := mul_count_le hj r1
      dsimp only
      rw [hrd _ q1.2]
      have := hsrc j hj p hpi
      rwa [hIc, hcnt] at this
    · intro a ha
      apply h4
      intro x hx
      obtain ⟨j, p, hj, hp, rfl⟩ := (hmem x).1 hx
      have r2 := Box.offset_range hoo ((mem_congr_bounds hl hh p).2 hp)
      have q2 := mul_count_le hj r2
      dsimp only
      omega
  unfold transposeLocal
  dsimp only
  rw [hsz]
  rw [hcnt] at hsl
  cases inplace with
  | false => exact key m.src hsl (fun _ _ => rfl)
  | true =>
    obtain ⟨ws, h1, h2, h3, -⟩ := copyMoves_ok (moves := (loop (nb * o.count)).map fun i => (i, i)) (src := m.src)
      (dst := m.ws) (by
        intro x hx
        simp only [List.mem_map, mem_loop] at hx
        obtain ⟨a, ha, rfl⟩ := hx
        dsimp only
        have h4 : (nb : Int) * (o.count + o.count) = nb * o.count + nb * o.count := by ring
        rw [h4] at hws
        omega) (by
        intro x hx y hy heq
        simp only [List.mem_map, mem_loop] at hx hy
        obtain ⟨a, ha, rfl⟩ := hx
        obtain ⟨b, hb, rfl⟩ := hy
        exact heq)
    simp only [if_true]
    rw [h1]
    apply key ws
    · rw [h2]
      have h4 : (nb : Int) * (o.count + o.count) = nb * o.count + nb * o.count := by ring
      rw [h4] at hws
      omega
    · intro a ha
      by_cases h0 : 0 ≤ a
      · have := h3 (a, a) (by simp only [List.mem_map, mem_loop]; exact ⟨a, ⟨h0, ha⟩, rfl⟩)
        exact this
      · rw [rd_eq_none (by omega), rd_eq_none (by omega)]

/-! ## All ranks -/

theorem mapRes_index {β γ : Type} {f : Nat → Res γ} {F : Nat → γ} : ∀ (l : List β) (k : Nat),
    (∀ r, r < l.length → f (k + r) = .ok (F (k + r))) →
      mapRes (fun r _ => f r) k l = .ok ((List.range l.length).map fun r => F (k + r))
  | [], _, _ => rfl
  | b :: t, k, h => by
    have h0 := h 0 (by simp)
    have ht := mapRes_index t (k + 1) (fun r hr => by
      have := h (r + 1) (by simpa using hr)
      rwa [show k + (r + 1) = k + 1 + r by omega] at this)
    rw [Nat.add_zero] at h0
    simp only [mapRes, h0, ht]
    congr 1
    rw [List.length_cons, List.range_succ_eq_map, List.map_cons, List.map_map, Nat.add_zero]
    congr 1
    apply List.map_congr_left
    intro r _
    simp only [Function.comp_apply]
    congr 1; omega

theorem mapRes_pure {β γ : Type} {F : β → γ} : ∀ (l : List β) (k : Nat) (f : Nat → β → Res γ),
    (∀ i b, f i b = .ok (F b)) → mapRes f k l = .ok (l.map F)
  | [], _, _, _ => rfl
  | b :: t, k, f, h => by
    simp only [mapRes, h, mapRes_pure t (k + 1) f h, List.map_cons]

theorem shapersOf_cases (h : Redistribution bin bout w) (alg : Alg) :
    (boxesMatch bin bout = true ∧ shapersOf alg bin bout = .ok ((List.range bin.length).map (matchShaper bin bout))) ∨
    (boxesMatch bin bout = false ∧ ∃ g, GroupFacts bin bout g ∧ shapersOf alg bin bout =
      .ok ((List.range bin.length).map (commShaper alg (directOf bin bout) bin bout g))) := by
  unfold shapersOf
  cases hm : boxesMatch bin bout with
  | true =>
    left
    refine ⟨rfl, ?_⟩
    rw [mapRes_index (F := matchShaper bin bout) bin 0 (fun r hr => by
      rw [Nat.zero_add]; exact makeReshape_match h hm alg hr)]
    simp only [Nat.zero_add]
  | false =>
    right
    refine ⟨rfl, ?_⟩
    obtain ⟨g, hg, hgr⟩ := makeReshape_comm h hm alg
    refine ⟨g, hg, ?_⟩
    rw [mapRes_index (F := commShaper alg (directOf bin bout) bin bout g) bin 0 (fun r hr => by
      rw [Nat.zero_add]; exact hgr r hr)]
    simp only [Nat.zero_add]

theorem none3_nomem (p : A3 Int) : p ∉ Box.none3 := by
  intro h
  have := Box.empty_false_of_mem h
  rw [Box.none3_empty] at this
  cases this

theorem good_idle (n nb : Nat) : Good n nb (fun _ => Box.none3) (fun _ => Box.none3) (fun _ => 0)
    ((List.range n).map fun _ => Job.idle) (fun _ _ => False) (fun _ => False) (fun _ _ => 0) (fun _ _ => 0) (fun _ _ => 0)
    (fun _ => 0) := by
  have hjob : ∀ {s : Nat} {job : Job}, ((List.range n).map fun _ => Job.idle)[s]? = some job → job = Job.idle :=
    fun hj => (range_map_get.1 hj).2
  refine ⟨by simp, ?_, by simp, by simp, by simp, by simp, by simp, by simp, by simp, by simp, by simp, ?_, ?_, ?_, ?_, ?_, ?_,
    ?_, ?_⟩
  · intro s r _ _ hc
    obtain ⟨p, hp⟩ := Box.empty_false_iff_mem.1 (Box.count_pos_iff.1 hc)
    exact absurd (Box.mem_collide.1 hp).1 (none3_nomem p)
  all_goals
    intro s job hj
    obtain rfl := hjob hj
    simp [Job.idle, none3_nomem]

theorem runJobs_idle (n : Nat) (mems : List (Arrays α)) (hl : mems.length = n) (G : Nat → A3 Int → α) :
    ∃ dsts, runJobs ((List.range n).map fun _ => Job.idle) mems = .ok dsts ∧ dsts.length = n ∧
      ∀ (r : Nat) m, mems[r]? = some m → dsts[r]? = some m.dst := by
  have ho : IsOrder Box.none3.order := by decide
  obtain ⟨dsts, h1, h2, h3⟩ := (good_idle n 0).run (fun _ _ => ho) (fun _ _ => ho)
    (fun _ _ p hp => absurd hp (none3_nomem p)) (fun _ _ _ _ p hp => absurd hp (none3_nomem p)) mems hl G
    (fun _ _ _ j hj => absurd hj (by omega)) (fun _ _ _ => by simp) (fun _ _ _ => by simp)
  refine ⟨dsts, h1, h2, ?_⟩
  intro r m hm
  obtain ⟨d, hd, hdl, -, hrd⟩ := h3 r m hm
  rw [hd]
  congr 1
  exact ext_rd hdl (fun i hi _ => hrd i (by simpa using hi))

theorem zipIdx_range_map {β γ : Type} (n : Nat) (f : Nat → β) (k : β × Nat → γ) :
    ((List.range n).map f).zipIdx.map k = (List.range n).map fun r => k (f r, r) := by
  apply List.ext_getElem?
  intro i
  simp only [List.getElem?_map, List.getElem?_zipIdx]
  by_cases hi : i < n
  · rw [List.getElem?_range hi]; simp
  · rw [List.getElem?_eq_none (by simpa using hi)]; simp

/-- What a reshape does: every rank with a reshape object gets its part of the new distribution; on the other ranks
nothing happens and nothing has to be done. -/
theorem reshape_main (h : Redistribution bin bout w) (alg : Alg) {stride : Nat} (hstr : 0 < stride) (nb : Nat)
    {done : Nat → List Nat} (hdone : ArrivalOrder bin bout done) (inplace : Nat → Bool) {mems : List (Arrays α)}
    {G : Nat → A3 Int → α} (hr : Ready bin bout nb (mems.map Arrays.src) (mems.map Arrays.dst) G)
    {shs : List (Option Shaper)} (hshs : shapersOf alg bin bout = .ok shs)
    (hws : ∀ (r : Nat) sh m, shs[r]? = some (some sh) → mems[r]? = some m → nb * sh.sizeWorkspace ≤ m.ws.length) :
    ∃ dsts, reshapeAll stride nb done inplace shs mems = .ok dsts ∧ dsts.length = bin.length ∧
      ∀ (r : Nat) b m sh, bout[r]? = some b → mems[r]? = some m → shs[r]? = some sh →
        ∃ d, dsts[r]? = some d ∧ d.length = m.dst.length ∧ (∀ a, (nb * b.points.card : Int) ≤ a → rd d a = rd m.dst a) ∧
          (sh ≠ none → HoldsBatch b nb d G) ∧ (sh = none → d = m.dst ∧ HoldsBatch b nb m.src G) := by
  have hlen : mems.length = bin.length := by simpa using hr.sources
  have hget : ∀ {r : Nat} {m}, mems[r]? = some m → r < bin.length := fun hm => by
    rw [← hlen]; exact (List.getElem?_eq_some_iff.1 hm).1
  have hgetO : ∀ {r : Nat}, r < bin.length → bout[r]? = some (boxAt bout r) := fun hr => boxAt_get (by rw [h.length]; exact hr)
  have hsrc : ∀ (r : Nat) m, mems[r]? = some m → HoldsBatch (boxAt bin r) nb m.src G := by
    intro r m hm
    exact hr.holds r _ _ (boxAt_get (hget hm)) (by rw [List.getElem?_map, hm]; rfl)
  have hsl : ∀ (r : Nat) m, mems[r]? = some m → nb * (boxAt bin r).count ≤ m.src.length := by
    intro r m hm
    have := hr.srcSize r _ _ (boxAt_get (hget hm)) (by rw [List.getElem?_map, hm]; rfl)
    rw [Box.count_eq_card]
    exact_mod_cast this
  have hdl : ∀ (r : Nat) m, mems[r]? = some m → nb * (boxAt bout r).count ≤ m.dst.length := by
    intro r m hm
    have := hr.dstSize r _ _ (hgetO (hget hm)) (by rw [List.getElem?_map, hm]; rfl)
    rw [Box.count_eq_card]
    exact_mod_cast this
  rcases shapersOf_cases h alg with ⟨hm, hs⟩ | ⟨hm, g, hg, hs⟩
  · -- equal boxes
    rw [hs] at hshs
    obtain rfl := Except.ok.inj hshs
    have hjobs : (((List.range bin.length).map (matchShaper bin bout)).zipIdx.map fun x =>
        Shaper.job stride nb (done x.2) x.1) = (List.range bin.length).map fun _ => Job.idle := by
      rw [zipIdx_range_map]
      apply List.map_congr_left
      intro r _
      unfold matchShaper
      split
      · rfl
      · split <;> rfl
    obtain ⟨moved, hmv, hml, hmr⟩ := runJobs_idle bin.length mems hlen G
    unfold reshapeAll
    rw [hjobs, hmv]
    obtain ⟨rs, h1, h2, h3⟩ := mapRes_ok
      (f := fun r (x : (Option Shaper × Arrays α) × List α) =>
        match x.1.1 with
        | some (.transpose plan) => transposeLocal stride nb plan (inplace r) x.1.2
        | _ => .ok x.2)
      (P := fun r x d => d.length = x.1.2.dst.length ∧
        (∀ a, (nb * (boxAt bout r).count : Int) ≤ a → rd d a = rd x.1.2.dst a) ∧
        (x.1.1 ≠ none → HoldsBatch (boxAt bout r) nb d G) ∧
        (x.1.1 = none → d = x.1.2.dst ∧ HoldsBatch (boxAt bout r) nb x.1.2.src G))
      ((((List.range bin.length).map (matchShaper bin bout)).zip mems).zip moved) 0 (by
      rintro r ⟨⟨sh, m⟩, dd⟩ hx
      rw [List.getElem?_zip_eq_some, List.getElem?_zip_eq_some] at hx
      obtain ⟨⟨hsh, hmm⟩, hdd⟩ := hx
      dsimp only at hsh hmm hdd ⊢
      rw [hmr r m hmm] at hdd
      obtain rfl := Option.some.inj hdd
      have hrn := hget hmm
      obtain ⟨-, rfl⟩ := range_map_get.1 hsh
      obtain ⟨hlo, hhi⟩ := boxesMatch_get hm hrn
      rw [Nat.zero_add]
      unfold matchShaper at hsh ⊢
      by_cases hd : directOf bin bout = true
      · rw [if_pos hd]
        refine ⟨m.dst, rfl, rfl, fun _ _ => rfl, fun hc => absurd rfl hc, fun _ => ⟨rfl, ?_⟩⟩
        refine (hsrc r m hmm).congr hlo hhi ?_
        rintro ⟨p, hp⟩
        exact (h.setup rfl).same hd _ (boxAt_mem hrn) _ (boxAt_mem (by rw [h.length]; exact hrn))
          ⟨p, hp, (mem_congr_bounds hlo hhi p).1 hp⟩
      · rw [if_neg hd] at hsh ⊢
        by_cases he : ((boxAt bout r).collide (boxAt bin r)).empty = true
        · rw [if_pos he]
          refine ⟨m.dst, rfl, rfl, fun _ _ => rfl, fun hc => absurd rfl hc, fun _ => ⟨rfl, ?_⟩⟩
          intro j _ p hp
          exact absurd ((mem_congr_bounds hlo hhi p).2 hp) (Box.collide_empty_iff.1 he p hp)
        · rw [if_neg he] at hsh ⊢
          rw [Bool.not_eq_true] at he
          obtain ⟨d, h1, h2, h3, h4⟩ := transposeLocal_ok (h.validIn _ (boxAt_mem hrn))
            (h.validOut _ (boxAt_mem (by rw [h.length]; exact hrn))) hlo.symm hhi.symm he hstr (inplace := inplace r)
            (hsrc r m hmm) (hsl r m hmm) (hdl r m hmm) (hws r _ m hsh hmm)
          exact ⟨d, h1, h2, h4, fun _ => h3, fun hc => by cases hc⟩)
    refine ⟨rs, h1, ?_, ?_⟩
    · rw [h2]; simp [hml, hlen]
    · intro r b m sh hb hmm hsh
      have hrn := hget hmm
      rw [hgetO hrn] at hb
      obtain rfl := Option.some.inj hb
      obtain ⟨d, hd, hP⟩ := h3 r ((sh, m), m.dst) (by
        rw [List.getElem?_zip_eq_some, List.getElem?_zip_eq_some]
        exact ⟨⟨hsh, hmm⟩, hmr r m hmm⟩)
      rw [Nat.zero_add] at hP
      rw [← Box.count_eq_card]
      exact ⟨d, hd, hP⟩
  · -- communication
    rw [hs] at hshs
    obtain rfl := Except.ok.inj hshs
    have hsetup := h.setup rfl
    obtain ⟨link, own, S, R, e, mid, good⟩ := comm_good h alg hg hstr nb hdone
    obtain ⟨moved, hmv, hml, hmr⟩ := good.run (fun r hr => hsetup.ordI hr) (fun r hr => hsetup.ordO hr)
      (fun r hr p hp => h.cover hr hp) hsetup.uniqIn mems hlen G hsrc hdl (by
        intro r m hmm
        have hrn := hget hmm
        cases hc : commShaper alg (directOf bin bout) bin bout g r with
        | none => simp [wsOf]
        | some sh => exact hws r sh m (range_map_get.2 ⟨hrn, hc.symm⟩) hmm)
    have hjobs : (((List.range bin.length).map (commShaper alg (directOf bin bout) bin bout g)).zipIdx.map fun x =>
        Shaper.job stride nb (done x.2) x.1) = (List.range bin.length).map fun r =>
          Shaper.job stride nb (done r) (commShaper alg (directOf bin bout) bin bout g r) := zipIdx_range_map _ _ _
    unfold reshapeAll
    rw [hjobs, hmv]
    have hnt : ∀ r plan, commShaper alg (directOf bin bout) bin bout g r ≠ some (.transpose plan) := by
      intro r plan
      unfold commShaper
      cases alg <;> dsimp only
      · cases objV (directOf bin bout) bin bout g r <;> simp
      · cases objA (directOf bin bout) bin bout g r <;> simp
      · simp
      · simp
    obtain ⟨rs, h1, h2, h3⟩ := mapRes_ok
      (f := fun r (x : (Option Shaper × Arrays α) × List α) =>
        match x.1.1 with
        | some (.transpose plan) => transposeLocal stride nb plan (inplace r) x.1.2
        | _ => .ok x.2)
      (P := fun r x d => d = x.2)
      ((((List.range bin.length).map (commShaper alg (directOf bin bout) bin bout g)).zip mems).zip moved) 0 (by
      rintro r ⟨⟨sh, m⟩, dd⟩ hx
      rw [List.getElem?_zip_eq_some, List.getElem?_zip_eq_some] at hx
      obtain ⟨⟨hsh, hmm⟩, hdd⟩ := hx
      dsimp only at hsh ⊢
      obtain ⟨-, hsh⟩ := range_map_get.1 hsh
      refine ⟨dd, ?_, rfl⟩
      split
      · exact absurd hsh.symm (hnt r _)
      · rfl)
    refine ⟨rs, h1, ?_, ?_⟩
    · rw [h2]; simp [hml, hlen]
    · intro r b m sh hb hmm hsh
      have hrn := hget hmm
      rw [hgetO hrn] at hb
      obtain rfl := Option.some.inj hb
      obtain ⟨d, hd, hdlen, hH, htail⟩ := hmr r m hmm
      obtain ⟨d', hd', hP⟩ := h3 r ((sh, m), d) (by
        rw [List.getElem?_zip_eq_some, List.getElem?_zip_eq_some]
        exact ⟨⟨hsh, hmm⟩, hd⟩)
      dsimp only at hP
      subst hP
      rw [← Box.count_eq_card]
      refine ⟨d', hd', hdlen, htail, fun _ => hH, ?_⟩
      rintro rfl
      obtain ⟨-, hsh⟩ := range_map_get.1 hsh
      have hgr : g r = [] := by
        unfold commShaper at hsh
        cases alg <;> dsimp only at hsh
        · unfold objV at hsh
          by_contra hc
          rw [if_neg hc] at hsh; cases hsh
        · unfold objA at hsh
          by_contra hc
          rw [if_neg hc] at hsh; cases hsh
        · cases hsh
        · cases hsh
      obtain ⟨-, hno⟩ := no_group h hg hrn hgr
      refine ⟨?_, fun j _ p hp => absurd hp (hno p)⟩
      apply ext_rd hdlen
      intro i hi _
      apply htail
      rw [count_zero hno]; simpa using hi

end Verif
