import Verif.JobLemmas

/-!
# The layout used by alltoallv is sound
-/

namespace Verif

/-- What the reshapes need to know about the boxes. -/
structure Setup (direct : Bool) (bin bout : List Box) : Prop where
  len : bout.length = bin.length
  ordIn : ∀ b ∈ bin, IsOrder b.order
  ordOut : ∀ b ∈ bout, IsOrder b.order
  same : direct = true → ∀ a ∈ bin, ∀ b ∈ bout, (∃ p : A3 Int, p ∈ a ∧ p ∈ b) → a.order = b.order
  uniqIn : ∀ s s', s < bin.length → s' < bin.length → ∀ p : A3 Int, p ∈ boxAt bin s → p ∈ boxAt bin s' → s = s'
  uniqOut : ∀ s s', s < bin.length → s' < bin.length → ∀ p : A3 Int, p ∈ boxAt bout s → p ∈ boxAt bout s' → s = s'

theorem boxAt_mem {l : List Box} {r : Nat} (h : r < l.length) : boxAt l r ∈ l := List.mem_of_getElem? (boxAt_get h)

theorem sum_collide_le {boxes : List Box} {n : Nat} (b : Box)
    (hu : ∀ s s', s < n → s' < n → ∀ p : A3 Int, p ∈ boxAt boxes s → p ∈ boxAt boxes s' → s = s') :
    ((List.range n).map fun q => (b.collide (boxAt boxes q)).count).sum ≤ b.count := by
  have h2 : ((List.range n).map fun q => (b.collide (boxAt boxes q)).count).sum =
      ∑ q ∈ Finset.range n, (b.collide (boxAt boxes q)).count := by
    rw [← List.sum_toFinset _ List.nodup_range]
    congr 1
    ext a; simp
  rw [h2, Box.count_eq_card]
  simp only [Box.count_eq_card]
  rw [← Nat.cast_sum, ← Finset.card_biUnion]
  · norm_cast
    apply Finset.card_le_card
    intro p hp
    simp only [Finset.mem_biUnion, Box.mem_points, Box.mem_collide] at hp ⊢
    obtain ⟨_, _, h, _⟩ := hp
    exact h
  · intro i hi j hj hij
    show Disjoint _ _
    rw [Finset.disjoint_left]
    intro p hp hq
    simp only [Box.mem_points, Box.mem_collide] at hp hq
    exact hij (hu i j (Finset.mem_range.1 hi) (Finset.mem_range.1 hj) p hp.2 hq.2)

variable {direct : Bool} {bin bout : List Box}

theorem Setup.ordI (h : Setup direct bin bout) {r : Nat} (hr : r < bin.length) : IsOrder (boxAt bin r).order :=
  h.ordIn _ (boxAt_mem hr)

theorem Setup.ordO (h : Setup direct bin bout) {r : Nat} (hr : r < bin.length) : IsOrder (boxAt bout r).order :=
  h.ordOut _ (boxAt_mem (by rw [h.len]; exact hr))

theorem Setup.getO (h : Setup direct bin bout) {r : Nat} (hr : r < bin.length) : bout[r]? = some (boxAt bout r) :=
  boxAt_get (by rw [h.len]; exact hr)

theorem getO (h : bout.length = bin.length) {r : Nat} (hr : r < bin.length) : bout[r]? = some (boxAt bout r) :=
  boxAt_get (by rw [h]; exact hr)

/-- Message sizes between ranks. -/
abbrev cnt (bin bout : List Box) (s r : Nat) : Int := msgCount (boxAt bin) (boxAt bout) s r

theorem cnt_nonneg (s r : Nat) : 0 ≤ cnt bin bout s r := Box.count_nonneg _

theorem cnt_pos {s r : Nat} : 0 < cnt bin bout s r ↔ ((boxAt bin s).collide (boxAt bout r)).empty = false := Box.count_pos_iff

theorem Setup.sumOut (h : Setup direct bin bout) (s : Nat) :
    ((List.range bin.length).map fun q => cnt bin bout s q).sum ≤ (boxAt bin s).count :=
  sum_collide_le _ h.uniqOut

theorem Setup.sumIn (h : Setup direct bin bout) (r : Nat) :
    ((List.range bin.length).map fun q => cnt bin bout q r).sum ≤ (boxAt bout r).count := by
  have := sum_collide_le (boxAt bout r) h.uniqIn
  unfold cnt msgCount
  simp only [fun q => Box.collide_count_comm (boxAt bin q) (boxAt bout r)]
  exact this

theorem touch_boxAt {a b : List Box} {i j : Nat} (hi : i < a.length) (hj : j < b.length) :
    touch a b i j = true ↔ ((boxAt a i).collide (boxAt b j)).empty = false := by
  unfold touch
  rw [boxAt_get hi, boxAt_get hj]
  simp

theorem cnt_pos_adj (hl : bout.length = bin.length) {s r : Nat} (hs : s < bin.length) (hr : r < bin.length)
    (h : 0 < cnt bin bout s r) : Adj bin bout s r :=
  .inl ((touch_boxAt hs (by omega)).2 (cnt_pos.1 h))

/-! ## Send and receive entries -/

/-- The entry of rank `s` for sending to rank `q`. -/
def sendE (bin bout : List Box) (s q : Nat) : Entry :=
  entryOf (fun _ ov => directPlan (boxAt bin s) ov) (boxAt bin s) q (boxAt bout q)

/-- The entry of rank `r` for receiving from rank `q`. -/
def recvE (direct : Bool) (bin bout : List Box) (r q : Nat) : Entry :=
  entryOf (recvPlan direct (boxAt bout r)) (boxAt bout r) q (boxAt bin q)

theorem sendE_size (bin bout : List Box) (s q : Nat) : (sendE bin bout s q).size = cnt bin bout s q := by
  unfold sendE entryOf cnt msgCount
  with_reducible rfl

theorem recvE_size (direct : Bool) (bin bout : List Box) (r q : Nat) : (recvE direct bin bout r q).size = cnt bin bout q r := by
  show ((boxAt bout r).collide (boxAt bin q)).count = ((boxAt bin q).collide (boxAt bout r)).count
  exact Box.collide_count_comm _ _

theorem look_send (h : bout.length = bin.length) {s q : Nat} (hs : s < bin.length) (hq : q < bin.length) :
    look (sendEntries bout s (boxAt bin s)) q =
      if 0 < cnt bin bout s q then
        some (sendE bin bout s q) else none := by
  have hm : s < bout.length := by rw [h]; exact hs
  rw [sendEntries_eq hm, look_overlapG hm]
  unfold entryAt
  rw [getO h hq]
  simp only [Option.bind_some]
  by_cases hc : 0 < cnt bin bout s q
  · rw [if_pos hc, if_neg (by rw [cnt_pos.1 hc]; simp)]; rfl
  · rw [if_neg hc, if_pos]
    rw [cnt_pos] at hc; simpa using hc

theorem look_recv (_ : bout.length = bin.length) {r q : Nat} (hr : r < bin.length) (hq : q < bin.length) :
    look (recvEntries direct bin r (boxAt bout r)) q =
      if 0 < cnt bin bout q r then
        some (recvE direct bin bout r q) else none := by
  rw [recvEntries_eq hr, look_overlapG hr]
  unfold entryAt
  rw [boxAt_get hq]
  simp only [Option.bind_some]
  have hcm := Box.collide_empty_comm (boxAt bin q) (boxAt bout r)
  by_cases hc : 0 < cnt bin bout q r
  · rw [if_pos hc, if_neg (by rw [← hcm, cnt_pos.1 hc]; simp)]; rfl
  · rw [if_neg hc, if_pos]
    rw [cnt_pos] at hc; rw [← hcm]; simpa using hc

theorem lookSize_send (h : bout.length = bin.length) {s q : Nat} (hs : s < bin.length) (hq : q < bin.length) :
    lookSize (sendEntries bout s (boxAt bin s)) q = cnt bin bout s q := by
  unfold lookSize
  rw [look_send h hs hq]
  have := cnt_nonneg (bin := bin) (bout := bout) s q
  split
  · rfl
  · simp only [Option.map_none, Option.getD_none]; omega

theorem lookSize_recv (h : bout.length = bin.length) {r q : Nat} (hr : r < bin.length) (hq : q < bin.length) :
    lookSize (recvEntries direct bin r (boxAt bout r)) q = cnt bin bout q r := by
  unfold lookSize
  rw [look_recv h hr hq]
  have := cnt_nonneg (bin := bin) (bout := bout) q r
  split
  · exact recvE_size _ _ _ _ _
  · simp only [Option.map_none, Option.getD_none]; omega

theorem send_nodup (h : bout.length = bin.length) {s : Nat} (hs : s < bin.length) :
    ((sendEntries bout s (boxAt bin s)).map Entry.proc).Nodup := by
  have hm : s < bout.length := by rw [h]; exact hs
  rw [sendEntries_eq hm]
  exact overlapG_nodup hm

theorem recv_nodup {r : Nat} (hr : r < bin.length) :
    ((recvEntries direct bin r (boxAt bout r)).map Entry.proc).Nodup := by
  rw [recvEntries_eq hr]
  exact overlapG_nodup hr

theorem mem_send_procs (h : bout.length = bin.length) {s q : Nat} (hs : s < bin.length) :
    q ∈ (sendEntries bout s (boxAt bin s)).map Entry.proc ↔ q < bin.length ∧ 0 < cnt bin bout s q := by
  have hm : s < bout.length := by rw [h]; exact hs
  have hsp : q ∈ (sendEntries bout s (boxAt bin s)).map Entry.proc ↔
      ∃ e, look (sendEntries bout s (boxAt bin s)) q = some e := by
    simp only [look_some (send_nodup h hs), List.mem_map]
  rw [hsp]
  constructor
  · rintro ⟨e, he⟩
    have hq : q < bin.length := by
      rw [sendEntries_eq hm, look_overlapG hm] at he
      obtain ⟨b, hb, -, -⟩ := entryAt_some.1 he
      rw [← h]; exact (List.getElem?_eq_some_iff.1 hb).1
    refine ⟨hq, ?_⟩
    rw [look_send h hs hq] at he
    by_contra hc
    rw [if_neg hc] at he; cases he
  · rintro ⟨hq, hc⟩
    rw [look_send h hs hq, if_pos hc]
    exact ⟨_, rfl⟩

theorem mem_recv_procs (h : bout.length = bin.length) {r q : Nat} (hr : r < bin.length) :
    q ∈ (recvEntries direct bin r (boxAt bout r)).map Entry.proc ↔ q < bin.length ∧ 0 < cnt bin bout q r := by
  have hsp : q ∈ (recvEntries direct bin r (boxAt bout r)).map Entry.proc ↔
      ∃ e, look (recvEntries direct bin r (boxAt bout r)) q = some e := by
    simp only [look_some (recv_nodup hr), List.mem_map]
  rw [hsp]
  constructor
  · rintro ⟨e, he⟩
    have hq : q < bin.length := by
      rw [recvEntries_eq hr, look_overlapG hr] at he
      obtain ⟨b, hb, -, -⟩ := entryAt_some.1 he
      exact (List.getElem?_eq_some_iff.1 hb).1
    refine ⟨hq, ?_⟩
    rw [look_recv h hr hq] at he
    by_contra hc
    rw [if_neg hc] at he; cases he
  · rintro ⟨hq, hc⟩
    rw [look_recv h hr hq, if_pos hc]
    exact ⟨_, rfl⟩

/-- The packing moves of one entry. -/
theorem mem_packEntry (h : Setup direct bin bout) {s q : Nat} (hs : s < bin.length) (hc : 0 < cnt bin bout s q)
    (data buf : Int) (m : Int × Int) :
    m ∈ packMoves (sendE bin bout s q).plan ((sendE bin bout s q).offset + data) buf ↔ ∃ p : A3 Int, p ∈ boxAt bin s ∧ p ∈ boxAt bout q ∧
      m = (buf + msgOff (boxAt bin s) (boxAt bout q) p, data + (boxAt bin s).offset p) :=
  mem_packOverlap (h.ordI hs) (cnt_pos.1 hc) data buf m

/-- The unpacking moves of one entry. -/
theorem mem_unpackEntry (h : Setup direct bin bout) {stride : Nat} (hstr : 0 < stride) {r q : Nat} (hr : r < bin.length)
    (hq : q < bin.length) (hc : 0 < cnt bin bout q r) (data buf : Int) (m : Int × Int) :
    m ∈ unpackWith direct stride (recvE direct bin bout r q).plan buf ((recvE direct bin bout r q).offset + data) ↔ ∃ p : A3 Int, p ∈ boxAt bin q ∧ p ∈ boxAt bout r ∧
      m = (data + (boxAt bout r).offset p, buf + msgOff (boxAt bin q) (boxAt bout r) p) := by
  apply mem_unpackWith hstr (h.ordI hq) (h.ordO hr) _ (cnt_pos.1 hc)
  intro hd
  obtain ⟨p, hp⟩ := Box.empty_false_iff_mem.1 (cnt_pos.1 hc)
  rw [Box.mem_collide] at hp
  exact h.same hd _ (boxAt_mem hq) _ (boxAt_mem (by rw [h.len]; exact hr)) ⟨p, hp⟩

/-! ## Groups -/

/-- What is needed to know about the communicators of a collective reshape. -/
structure GroupFacts (bin bout : List Box) (g : Nat → List Nat) : Prop where
  sorted : ∀ s, s < bin.length → g s = (List.range bin.length).filter (fun i => decide (i ∈ g s))
  self : ∀ s q, s < bin.length → q ∈ g s → s ∈ g s
  same : ∀ s q, s < bin.length → q ∈ g s → g q = g s
  nbr : ∀ s q, s < bin.length → Adj bin bout s q → q ∈ g s

theorem GroupFacts.lt {g : Nat → List Nat} (h : GroupFacts bin bout g) {s q : Nat} (hs : s < bin.length) (hq : q ∈ g s) :
    q < bin.length := by
  rw [h.sorted s hs] at hq
  exact List.mem_range.1 (List.mem_filter.1 hq).1

theorem GroupFacts.nodup {g : Nat → List Nat} (h : GroupFacts bin bout g) {s : Nat} (hs : s < bin.length) : (g s).Nodup := by
  rw [h.sorted s hs]
  exact List.nodup_range.filter _

theorem GroupFacts.symm {g : Nat → List Nat} (h : GroupFacts bin bout g) {s q : Nat} (hs : s < bin.length) (hq : q ∈ g s) :
    s ∈ g q := by
  rw [h.same s q hs hq]
  exact h.self s q hs hq

theorem Adj.lt (hl : bout.length = bin.length) {i j : Nat} (h : Adj bin bout i j) : i < bin.length ∧ j < bin.length := by
  rcases h with h | h <;> have := touch_lt h <;> omega

theorem groupFacts_of (g : Nat → List Nat) (seed : Nat → Nat → Prop)
    (hg : ∀ s, s < bin.length → g s = (List.range bin.length).filter (fun i => decide (i ∈ g s)) ∧
      ∀ q, q ∈ g s ↔ ∃ p, seed s p ∧ Reach bin bout p q)
    (hseed : ∀ s p, s < bin.length → seed s p → p < bin.length ∧ Reach bin bout s p)
    (hnbr : ∀ s q, s < bin.length → Adj bin bout s q → ∃ p, seed s p) : GroupFacts bin bout g := by
  have key : ∀ s, s < bin.length → ∀ q, q ∈ g s ↔ (∃ p, seed s p) ∧ Reach bin bout s q := by
    intro s hs q
    rw [(hg s hs).2 q]
    constructor
    · rintro ⟨p, hp, hr⟩
      exact ⟨⟨p, hp⟩, (hseed s p hs hp).2.trans hr⟩
    · rintro ⟨⟨p, hp⟩, hr⟩
      exact ⟨p, hp, (hseed s p hs hp).2.symm.trans hr⟩
  have hlt : ∀ s, s < bin.length → ∀ q, q ∈ g s → q < bin.length := by
    intro s hs q hq
    rw [(hg s hs).1] at hq
    exact List.mem_range.1 (List.mem_filter.1 hq).1
  refine ⟨fun s hs => (hg s hs).1, ?_, ?_, ?_⟩
  · intro s q hs hq
    rw [key s hs] at hq ⊢
    exact ⟨hq.1, .refl⟩
  · intro s q hs hq
    have hqn := hlt s hs q hq
    refine sorted_ext (hg q hqn).1 (hg s hs).1 ?_
    intro t
    rw [key s hs] at hq
    rw [key s hs, key q hqn]
    have hsq : ∃ p, seed q p := by
      by_cases hne : s = q
      · subst hne; exact hq.1
      · obtain ⟨r, hr⟩ := hq.2.has_neighbour hne
        exact hnbr q r hqn hr
    exact ⟨fun ht => ⟨hq.1, hq.2.trans ht.2⟩, fun ht => ⟨hsq, hq.2.symm.trans ht.2⟩⟩
  · intro s q hs ha
    rw [key s hs]
    exact ⟨hnbr s q hs ha, .single ha⟩

theorem exists_fun {P : Nat → List Nat → Prop} {n : Nat} (h : ∀ s, s < n → ∃ g, P s g) : ∃ g : Nat → List Nat, ∀ s, s < n → P s (g s) := by
  refine ⟨fun s => if hs : s < n then (h s hs).choose else [], ?_⟩
  intro s hs
  simp only [hs, dite_true]
  exact (h s hs).choose_spec

/-! ## alltoallv -/

/-- The object made on rank `r`, given the groups. -/
def objV (direct : Bool) (bin bout : List Box) (g : Nat → List Nat) (r : Nat) : Option AllToAllv :=
  if g r = [] then none
  else some ⟨(boxAt bin r).count, (boxAt bout r).count, g r, sendEntries bout r (boxAt bin r),
    recvEntries direct bin r (boxAt bout r), ioRows (sendEntries bout r (boxAt bin r)) (g r) 0,
    ioRows (recvEntries direct bin r (boxAt bout r)) (g r) 0⟩

theorem groupsV (h : bout.length = bin.length) :
    ∃ g, GroupFacts bin bout g ∧ ∀ r, r < bin.length → makeAllToAllv direct bin bout r = .ok (objV direct bin bout g r) := by
  have hseed : ∀ s, s < bin.length → ∀ p, p ∈ (sendEntries bout s (boxAt bin s)).map Entry.proc ++
      (recvEntries direct bin s (boxAt bout s)).map Entry.proc ↔ Adj bin bout s p := by
    intro s hs p
    rw [List.mem_append, mem_send_procs h hs, mem_recv_procs h hs]
    constructor
    · rintro (⟨hp, hc⟩ | ⟨hp, hc⟩)
      · exact cnt_pos_adj h hs hp hc
      · exact (cnt_pos_adj h hp hs hc).symm
    · intro ha
      have hlt := ha.lt h
      rcases ha with ha | ha
      · exact .inl ⟨hlt.2, cnt_pos.2 ((touch_boxAt hs (by rw [h]; exact hlt.2)).1 ha)⟩
      · right
        refine ⟨hlt.2, cnt_pos.2 ?_⟩
        rw [Box.collide_empty_comm]
        exact (touch_boxAt (by rw [h]; exact hs) hlt.2).1 ha
  obtain ⟨g, hg⟩ := exists_fun (n := bin.length) (P := fun s g =>
    a2aGroup ((sendEntries bout s (boxAt bin s)).map Entry.proc) ((recvEntries direct bin s (boxAt bout s)).map Entry.proc)
      bin bout = .ok g ∧ g = (List.range bin.length).filter (fun i => decide (i ∈ g)) ∧
      ∀ q, q ∈ g ↔ ∃ p, Adj bin bout s p ∧ Reach bin bout p q) (by
    intro s hs
    obtain ⟨g, h1, h2, h3⟩ := a2aGroup_spec h
      (send := (sendEntries bout s (boxAt bin s)).map Entry.proc)
      (recv := (recvEntries direct bin s (boxAt bout s)).map Entry.proc) (by
      intro p hp
      exact (((hseed s hs p).1 hp).lt h).2)
    refine ⟨g, h1, h2, ?_⟩
    intro q
    rw [h3]
    simp only [hseed s hs])
  refine ⟨g, groupFacts_of g (Adj bin bout) (fun s hs => (hg s hs).2)
    (fun s p _ hp => ⟨(hp.lt h).2, .single hp⟩) (fun s q _ hq => ⟨q, hq⟩), ?_⟩
  intro r hr
  unfold makeAllToAllv
  rw [boxAt_get hr, getO h hr]
  dsimp only
  rw [(hg r hr).1]
  unfold objV
  by_cases hgr : g r = []
  · rw [if_pos hgr]
    show (if g r = [] then _ else _) = _
    rw [if_pos hgr]
  · rw [if_neg hgr]
    show (if g r = [] then _ else _) = _
    rw [if_neg hgr]

/-- The jobs of an alltoallv reshape. -/
def jobV (direct : Bool) (bin bout : List Box) (g : Nat → List Nat) (stride nb : Nat) (r : Nat) : Job :=
  match objV direct bin bout g r with
  | none => Job.idle
  | some o => o.job direct stride nb

theorem jobV_eq (direct : Bool) (bin bout : List Box) (g : Nat → List Nat) (stride nb : Nat) (r : Nat) :
    let packs := sendEntries bout r (boxAt bin r)
    let unpacks := recvEntries direct bin r (boxAt bout r)
    let base : Int := nb * (boxAt bin r).count
    jobV direct bin bout g stride nb r =
      ⟨g r, allToAllvPack nb (boxAt bin r).count packs (ioRows packs (g r) 0) 0,
        ((g r).zip (ioRows packs (g r) 0)).map (fun m => ⟨m.1, m.2.displ * nb, m.2.count * nb⟩),
        ((g r).zip (ioRows unpacks (g r) 0)).map (fun m => ⟨m.1, base + m.2.displ * nb, m.2.count * nb⟩), [],
        allToAllvUnpack direct stride nb (boxAt bout r).count base unpacks (ioRows unpacks (g r) 0) 0⟩ := by
  intro packs unpacks base
  unfold jobV objV
  by_cases hg : g r = []
  · rw [if_pos hg, hg]; rfl
  · rw [if_neg hg]; rfl

theorem range_map_get {β : Type} {n : Nat} {f : Nat → β} {s : Nat} {b : β} :
    ((List.range n).map f)[s]? = some b ↔ s < n ∧ b = f s := by
  rw [List.getElem?_map]
  by_cases h : s < n
  · rw [List.getElem?_range h]
    simp [h, eq_comm]
  · rw [List.getElem?_eq_none (by simpa using h)]
    simp [h]

theorem mul_sum {nb : Nat} (f : Nat → Int) (l : List Nat) : (l.map fun q => (nb : Int) * f q).sum = nb * (l.map f).sum := by
  induction l with
  | nil => simp
  | cons a t ih => simp only [List.map_cons, List.sum_cons, ih, mul_add]

/-- The position of the message to `r` in the workspace of `s`. -/
def posS (bin bout : List Box) (g : Nat → List Nat) (s r : Nat) : Int :=
  if 0 < cnt bin bout s r then seg (fun q => cnt bin bout s q) (g s) r else 0

/-- The position of the message from `s` in the receive part of the workspace of `r`. -/
def posR (bin bout : List Box) (g : Nat → List Nat) (r s : Nat) : Int :=
  if 0 < cnt bin bout s r then seg (fun q => cnt bin bout q r) (g r) s else 0

theorem goodV (h : Setup direct bin bout) {g : Nat → List Nat} (hg : GroupFacts bin bout g) {stride : Nat}
    (hstr : 0 < stride) (nb : Nat) :
    Good bin.length nb (boxAt bin) (boxAt bout) (fun r => nb * ((boxAt bin r).count + (boxAt bout r).count))
      ((List.range bin.length).map (jobV direct bin bout g stride nb)) (fun s r => s < bin.length ∧ r ∈ g s) (fun _ => False)
      (fun s r => posS bin bout g s r * nb)
      (fun r s => nb * (boxAt bin r).count + posR bin bout g r s * nb)
      (cnt bin bout) (fun r => nb * (boxAt bin r).count) := by
  have hc0 := fun s r => cnt_nonneg (bin := bin) (bout := bout) s r
  have hsum : ∀ s, s < bin.length → ((g s).map fun q => cnt bin bout s q).sum ≤ (boxAt bin s).count := fun s hs =>
    le_trans (sum_le_range (fun a _ => hc0 s a) (hg.nodup hs) (fun a ha => hg.lt hs ha)) (h.sumOut s)
  have hsum' : ∀ r, r < bin.length → ((g r).map fun q => cnt bin bout q r).sum ≤ (boxAt bout r).count := fun r hr =>
    le_trans (sum_le_range (f := fun q => cnt bin bout q r) (fun a _ => hc0 a r) (hg.nodup hr) (fun a ha => hg.lt hr ha)) (h.sumIn r)
  have hbI := fun s => Box.count_nonneg (boxAt bin s)
  have hbO := fun s => Box.count_nonneg (boxAt bout s)
  have hnb : (0 : Int) ≤ nb := by positivity
  have pS : ∀ s r, s < bin.length → r ∈ g s → 0 ≤ posS bin bout g s r ∧
      posS bin bout g s r + cnt bin bout s r ≤ (boxAt bin s).count := by
    intro s r hs hr
    unfold posS
    have := hc0 s r
    split
    · have h1 := seg_nonneg (f := fun q => cnt bin bout s q) (l := g s) (fun a _ => hc0 s a) r
      have h2 := seg_le (f := fun q => cnt bin bout s q) (l := g s) (fun a _ => hc0 s a) hr
      have h3 := hsum s hs
      omega
    · have := hbI s
      omega
  have pR : ∀ r s, r < bin.length → s ∈ g r → 0 ≤ posR bin bout g r s ∧
      posR bin bout g r s + cnt bin bout s r ≤ (boxAt bout r).count := by
    intro r s hr hs
    unfold posR
    have := hc0 s r
    split
    · have h1 := seg_nonneg (f := fun q => cnt bin bout q r) (l := g r) (fun a _ => hc0 a r) s
      have h2 := seg_le (f := fun q => cnt bin bout q r) (l := g r) (fun a _ => hc0 a r) hs
      have h3 := hsum' r hr
      omega
    · have := hbO r
      omega
  have hjob : ∀ {s : Nat} {job : Job}, ((List.range bin.length).map (jobV direct bin bout g stride nb))[s]? = some job →
      s < bin.length ∧ job = jobV direct bin bout g stride nb s := fun hj => range_map_get.1 hj
  have segS : ∀ s, s < bin.length → ∀ q, seg (lookSize (sendEntries bout s (boxAt bin s))) (g s) q =
      seg (fun q => cnt bin bout s q) (g s) q := fun s hs q =>
    seg_congr (fun a ha => lookSize_send h.len hs (hg.lt hs ha)) q
  have segR : ∀ r, r < bin.length → ∀ q, seg (lookSize (recvEntries direct bin r (boxAt bout r))) (g r) q =
      seg (fun q => cnt bin bout q r) (g r) q := fun s hs q =>
    seg_congr (fun a ha => lookSize_recv h.len hs (hg.lt hs ha)) q
  refine ⟨by simp, ?_, by simp, ?_, by simp, ?_, ?_, ?_, ?_, ?_, ?_, ?_, ?_, ?_, ?_, ?_, ?_, ?_, ?_⟩
  · -- cover
    intro s r hs hr hc
    exact .inl ⟨hs, hg.nbr s r hs (cnt_pos_adj h.len hs hr hc)⟩
  · rintro s r ⟨hs, hr⟩
    exact ⟨hs, hg.lt hs hr⟩
  · intros; exact le_rfl
  · -- sendIn
    rintro s r ⟨hs, hr⟩
    have := pS s r hs hr
    constructor
    · exact mul_nonneg this.1 hnb
    · have := mul_le_mul_of_nonneg_left this.2 hnb
      linarith [mul_add (nb : Int) (posS bin bout g s r) (cnt bin bout s r), mul_comm (nb : Int) (posS bin bout g s r)]
  · -- sendApart
    rintro s r r' ⟨hs, hr⟩ ⟨-, hr'⟩ hne
    have key : posS bin bout g s r + cnt bin bout s r ≤ posS bin bout g s r' ∨
        posS bin bout g s r' + cnt bin bout s r' ≤ posS bin bout g s r := by
      have h1 := hc0 s r
      have h2 := hc0 s r'
      have h3 := pS s r hs hr
      have h4 := pS s r' hs hr'
      by_cases hp : 0 < cnt bin bout s r
      · by_cases hp' : 0 < cnt bin bout s r'
        · have := seg_apart (f := fun q => cnt bin bout s q) (l := g s) (fun a _ => hc0 s a) hr hr' hne
          simpa only [posS, if_pos hp, if_pos hp'] using this
        · right; rw [show posS bin bout g s r' = 0 from if_neg hp']; omega
      · left; rw [show posS bin bout g s r = 0 from if_neg hp]; omega
    rcases key with key | key
    · left
      have := mul_le_mul_of_nonneg_left key hnb
      linarith [mul_add (nb : Int) (posS bin bout g s r) (cnt bin bout s r), mul_comm (nb : Int) (posS bin bout g s r), mul_comm (nb : Int) (posS bin bout g s r')]
    · right
      have := mul_le_mul_of_nonneg_left key hnb
      linarith [mul_add (nb : Int) (posS bin bout g s r') (cnt bin bout s r'), mul_comm (nb : Int) (posS bin bout g s r), mul_comm (nb : Int) (posS bin bout g s r')]
  · -- recvIn
    rintro s r (⟨hs, hr⟩ | ⟨-, hf⟩)
    · have hrn := hg.lt hs hr
      have := pR r s hrn (hg.symm hs hr)
      constructor
      · have := mul_nonneg this.1 hnb; omega
      · have := mul_le_mul_of_nonneg_left this.2 hnb
        rw [mul_add] at this
        rw [mul_add (nb : Int)]
        linarith [mul_comm (nb : Int) (posR bin bout g r s)]
    · exact hf.elim
  · -- recvApart
    rintro s s' r (⟨hs, hr⟩ | ⟨-, hf⟩) (⟨hs', hr'⟩ | ⟨-, hf'⟩) hne
    · have hrn := hg.lt hs hr
      have hm := hg.symm hs hr
      have hm' := hg.symm hs' hr'
      have key : posR bin bout g r s + cnt bin bout s r ≤ posR bin bout g r s' ∨
          posR bin bout g r s' + cnt bin bout s' r ≤ posR bin bout g r s := by
        have h1 := hc0 s r
        have h2 := hc0 s' r
        have h3 := pR r s hrn hm
        have h4 := pR r s' hrn hm'
        by_cases hp : 0 < cnt bin bout s r
        · by_cases hp' : 0 < cnt bin bout s' r
          · have := seg_apart (f := fun q => cnt bin bout q r) (l := g r) (fun a _ => hc0 a r) hm hm' hne
            simpa only [posR, if_pos hp, if_pos hp'] using this
          · right; rw [show posR bin bout g r s' = 0 from if_neg hp']; omega
        · left; rw [show posR bin bout g r s = 0 from if_neg hp]; omega
      rcases key with key | key
      · left
        have := mul_le_mul_of_nonneg_left key hnb
        rw [mul_add] at this
        linarith [mul_comm (nb : Int) (posR bin bout g r s), mul_comm (nb : Int) (posR bin bout g r s')]
      · right
        have := mul_le_mul_of_nonneg_left key hnb
        rw [mul_add] at this
        linarith [mul_comm (nb : Int) (posR bin bout g r s), mul_comm (nb : Int) (posR bin bout g r s')]
    · exact hf'.elim
    · exact hf.elim
    · exact hf.elim
  · -- midIn
    intro s hs
    have h1 := mul_nonneg hnb (hbI s)
    have h2 := mul_nonneg hnb (hbO s)
    rw [mul_add]
    omega
  · -- packs
    intro s job hj m
    obtain ⟨hs, rfl⟩ := hjob hj
    rw [jobV_eq]
    dsimp only
    rw [mem_allToAllvPack (send_nodup h.len hs) nb _ (g s) 0 0 (hg.nodup hs)]
    constructor
    · rintro ⟨q, hq, e, he, j, hj, hm⟩
      have hqn := hg.lt hs hq
      rw [look_send h.len hs hqn] at he
      by_cases hc : 0 < cnt bin bout s q
      · rw [if_pos hc] at he
        obtain rfl := Option.some.inj he
        rw [mem_packEntry h hs hc] at hm
        obtain ⟨p, hpI, hpO, rfl⟩ := hm
        refine ⟨q, j, p, ⟨hs, hq⟩, hj, hpI, hpO, ?_⟩
        rw [seg_mul, segS s hs]
        unfold posS
        rw [if_pos hc]
        rw [sendE_size]
        congr 2
        ring
      · rw [if_neg hc] at he; cases he
    · rintro ⟨q, j, p, ⟨-, hq⟩, hj, hpI, hpO, rfl⟩
      have hqn := hg.lt hs hq
      have hc : 0 < cnt bin bout s q := msgCount_pos hpI hpO
      refine ⟨q, hq, _, by rw [look_send h.len hs hqn, if_pos hc], j, hj, ?_⟩
      rw [mem_packEntry h hs hc]
      refine ⟨p, hpI, hpO, ?_⟩
      rw [seg_mul, segS s hs]
      unfold posS
      rw [if_pos hc]
      rw [sendE_size]
      congr 2
      ring
  · -- sends
    intro s job hj m
    obtain ⟨hs, rfl⟩ := hjob hj
    rw [jobV_eq]
    dsimp only
    rw [mem_ioMsgs (send_nodup h.len hs) (fun q d c => ⟨q, d * nb, c * nb⟩) (g s) 0 (hg.nodup hs)]
    have : ∀ q, q ∈ g s → (⟨q, (if (look (sendEntries bout s (boxAt bin s)) q).isSome then
        0 + seg (lookSize (sendEntries bout s (boxAt bin s))) (g s) q else 0) * (nb : Int),
        lookSize (sendEntries bout s (boxAt bin s)) q * nb⟩ : Msg) = ⟨q, posS bin bout g s q * nb, nb * cnt bin bout s q⟩ := by
      intro q hq
      have hqn := hg.lt hs hq
      rw [lookSize_send h.len hs hqn, look_send h.len hs hqn, segS s hs, mul_comm (cnt bin bout s q)]
      unfold posS
      split <;> simp
    constructor
    · rintro ⟨q, hq, rfl⟩
      exact ⟨q, ⟨hs, hq⟩, this q hq⟩
    · rintro ⟨q, ⟨-, hq⟩, rfl⟩
      exact ⟨q, hq, (this q hq).symm⟩
  · -- sendsNodup
    intro s job hj
    obtain ⟨hs, rfl⟩ := hjob hj
    rw [jobV_eq]
    dsimp only
    rw [ioMsgs_peers (fun q d c => ⟨q, d * nb, c * nb⟩) (fun _ _ _ => rfl)]
    exact hg.nodup hs
  · -- recvs
    intro r job hj m
    obtain ⟨hr, rfl⟩ := hjob hj
    rw [jobV_eq]
    dsimp only
    rw [mem_ioMsgs (recv_nodup hr) (fun q d c => ⟨q, nb * (boxAt bin r).count + d * nb, c * nb⟩) (g r) 0 (hg.nodup hr)]
    have : ∀ q, q ∈ g r → (⟨q, nb * (boxAt bin r).count + (if (look (recvEntries direct bin r (boxAt bout r)) q).isSome then
        0 + seg (lookSize (recvEntries direct bin r (boxAt bout r))) (g r) q else 0) * (nb : Int),
        lookSize (recvEntries direct bin r (boxAt bout r)) q * nb⟩ : Msg) =
        ⟨q, nb * (boxAt bin r).count + posR bin bout g r q * nb, nb * cnt bin bout q r⟩ := by
      intro q hq
      have hqn := hg.lt hr hq
      rw [lookSize_recv h.len hr hqn, look_recv h.len hr hqn, segR r hr, mul_comm (cnt bin bout q r)]
      unfold posR
      split <;> simp
    constructor
    · rintro ⟨q, hq, rfl⟩
      exact ⟨q, ⟨hg.lt hr hq, hg.symm hr hq⟩, this q hq⟩
    · rintro ⟨q, ⟨hqn, hq⟩, rfl⟩
      exact ⟨q, hg.symm hqn hq, (this q (hg.symm hqn hq)).symm⟩
  · -- recvsNodup
    intro r job hj
    obtain ⟨hr, rfl⟩ := hjob hj
    rw [jobV_eq]
    dsimp only
    rw [ioMsgs_peers (fun q d c => ⟨q, nb * (boxAt bin r).count + d * nb, c * nb⟩) (fun _ _ _ => rfl)]
    exact hg.nodup hr
  · -- groups
    intro r job hj q hq
    obtain ⟨hr, rfl⟩ := hjob hj
    rw [jobV_eq] at hq ⊢
    dsimp only at hq ⊢
    refine ⟨jobV direct bin bout g stride nb q, range_map_get.2 ⟨hg.lt hr hq, rfl⟩, ?_⟩
    rw [jobV_eq]
    exact hg.same r q hr hq
  · -- selfPacks
    intro s job hj m
    obtain ⟨hs, rfl⟩ := hjob hj
    rw [jobV_eq]
    simp
  · -- unpacks
    intro r job hj m
    obtain ⟨hr, rfl⟩ := hjob hj
    rw [jobV_eq]
    dsimp only
    rw [mem_allToAllvUnpack (recv_nodup hr) direct stride nb _ _ (g r) 0 0 (hg.nodup hr)]
    constructor
    · rintro ⟨q, hq, e, he, j, hj, hm⟩
      have hqn := hg.lt hr hq
      rw [look_recv h.len hr hqn] at he
      by_cases hc : 0 < cnt bin bout q r
      · rw [if_pos hc] at he
        obtain rfl := Option.some.inj he
        rw [mem_unpackEntry h hstr hr hqn hc] at hm
        obtain ⟨p, hpI, hpO, rfl⟩ := hm
        refine ⟨q, j, p, hqn, hj, hpI, hpO, ?_⟩
        rw [seg_mul, segR r hr]
        unfold posR
        rw [if_pos hc]
        rw [recvE_size]
        congr 1
        ring
      · rw [if_neg hc] at he; cases he
    · rintro ⟨q, j, p, hqn, hj, hpI, hpO, rfl⟩
      have hc : 0 < cnt bin bout q r := msgCount_pos hpI hpO
      have hq : q ∈ g r := hg.nbr r q hr (cnt_pos_adj h.len hqn hr hc).symm
      refine ⟨q, hq, _, by rw [look_recv h.len hr hqn, if_pos hc], j, hj, ?_⟩
      rw [mem_unpackEntry h hstr hr hqn hc]
      refine ⟨p, hpI, hpO, ?_⟩
      rw [seg_mul, segR r hr]
      unfold posR
      rw [if_pos hc]
      rw [recvE_size]
      congr 1
      ring

end Verif
