import Verif.GoodV

/-!
# The layout used by alltoall is sound
-/

namespace Verif
variable {direct : Bool} {bin bout : List Box}

theorem foldl_ge {β : Type} (f : Int → β → Int) (hf : ∀ m b, m ≤ f m b) (l : List β) (m : Int) : m ≤ l.foldl f m := by
  induction l generalizing m with
  | nil => exact le_rfl
  | cons b t ih => exact le_trans (hf m b) (ih _)

theorem foldl_ge_mem {β : Type} (f : Int → β → Int) (hf : ∀ m b, m ≤ f m b) {x : Int} {b : β} (hb : ∀ m, x ≤ f m b)
    (l : List β) (h : b ∈ l) (m : Int) : x ≤ l.foldl f m := by
  induction l generalizing m with
  | nil => simp at h
  | cons a t ih =>
    rcases List.mem_cons.1 h with rfl | h
    · exact le_trans (hb m) (foldl_ge f hf t _)
    · exact ih h _

theorem getMaxSize_nonneg (g : List Nat) (bin bout : List Box) : 0 ≤ getMaxSize g bin bout := by
  unfold getMaxSize
  apply foldl_ge
  intro m s
  apply foldl_ge
  intro m r
  split
  · exact le_max_left _ _
  · exact le_rfl

theorem cnt_le_getMaxSize {g : List Nat} (hl : bout.length = bin.length) {s r : Nat} (hs : s ∈ g) (hr : r ∈ g)
    (hsn : s < bin.length) (hrn : r < bin.length) : cnt bin bout s r ≤ getMaxSize g bin bout := by
  unfold getMaxSize
  have hin : ∀ (s : Nat) (m : Int) (r : Nat), m ≤ (match bin[s]?, bout[r]? with
      | some a, some b => max m (a.collide b).count
      | _, _ => m) := by
    intro s m r
    split
    · exact le_max_left _ _
    · exact le_rfl
  refine foldl_ge_mem _ ?_ (b := s) ?_ g hs 0
  · intro m s
    exact foldl_ge _ (hin s) _ _
  · intro m
    refine foldl_ge_mem _ (hin s) (b := r) ?_ g hr m
    intro m
    rw [boxAt_get hsn, boxAt_get (show r < bout.length by omega)]
    exact le_max_right _ _

theorem osize_pos {b : Box} (h : b.empty = false) (i : Fin 3) : 0 < b.osize i := by
  rw [Box.empty_false_iff] at h
  have := h (b.order.get i)
  simp only [Box.osize, Box.size, A3.get_of]
  omega

/-- The offset and plan of rank `q` for sending. -/
def sendA (bin bout : List Box) (s q : Nat) : Int × PackPlan :=
  if ((boxAt bin s).collide (boxAt bout q)).empty then (0, ⟨⟨0, 0, 0⟩, 0, 0, 0, 0, ⟨0, 0, 0⟩⟩)
  else ((sendE bin bout s q).offset, (sendE bin bout s q).plan)

/-- The offset and plan of rank `q` for receiving. -/
def recvA (direct : Bool) (bin bout : List Box) (r q : Nat) : Int × PackPlan :=
  if ((boxAt bout r).collide (boxAt bin q)).empty then (0, ⟨⟨0, 0, 0⟩, 0, 0, 0, 0, ⟨0, 0, 0⟩⟩)
  else ((recvE direct bin bout r q).offset, (recvE direct bin bout r q).plan)

theorem filterMap_some_map {β γ : Type} {f : β → Option γ} {k : β → γ} : ∀ (l : List β), (∀ b ∈ l, f b = some (k b)) →
    l.filterMap f = l.map k
  | [], _ => rfl
  | b :: t, h => by
    rw [List.filterMap_cons, h b (by simp), List.map_cons,
      filterMap_some_map t (fun b hb => h b (by simp [hb]))]

theorem overlapA_send (h : bout.length = bin.length) {g : List Nat} (hg : ∀ q ∈ g, q < bin.length) (s : Nat) :
    overlapMapAll2all false g (boxAt bin s) bout = g.map (sendA bin bout s) := by
  apply filterMap_some_map
  intro q hq
  rw [getO h (hg q hq)]
  rfl

theorem overlapA_recv {g : List Nat} (hg : ∀ q ∈ g, q < bin.length) (r : Nat) :
    overlapMapAll2all (!direct) g (boxAt bout r) bin = g.map (recvA direct bin bout r) := by
  apply filterMap_some_map
  intro q hq
  rw [boxAt_get (hg q hq)]
  cases direct <;> rfl

theorem sendA_pos {s q : Nat} : (sendA bin bout s q).2.size 0 > 0 ↔ 0 < cnt bin bout s q := by
  unfold sendA
  rw [cnt_pos]
  split
  · rename_i hc
    rw [hc]
    simp
  · rename_i hc
    rw [Bool.not_eq_true] at hc
    simp only [hc, iff_true]
    exact osize_pos hc 0

theorem recvA_pos {r q : Nat} : (recvA direct bin bout r q).2.size 0 > 0 ↔ 0 < cnt bin bout q r := by
  unfold recvA
  rw [cnt_pos, Box.collide_empty_comm (boxAt bin q)]
  split
  · rename_i hc
    rw [hc]
    simp
  · rename_i hc
    rw [Bool.not_eq_true] at hc
    simp only [hc, iff_true]
    cases direct <;> exact osize_pos hc 0

theorem sendA_eq {s q : Nat} (hc : 0 < cnt bin bout s q) :
    sendA bin bout s q = ((sendE bin bout s q).offset, (sendE bin bout s q).plan) := by
  unfold sendA
  rw [if_neg]
  rw [cnt_pos.1 hc]; simp

theorem recvA_eq {r q : Nat} (hc : 0 < cnt bin bout q r) :
    recvA direct bin bout r q = ((recvE direct bin bout r q).offset, (recvE direct bin bout r q).plan) := by
  unfold recvA
  rw [if_neg]
  rw [Box.collide_empty_comm, cnt_pos.1 hc]; simp

theorem mem_allToAllPack (nb : Nat) (inSize E : Int) (k : Nat → Int × PackPlan) :
    ∀ (g : List Nat) (off : Int), g.Nodup → ∀ m, m ∈ allToAllPack nb inSize E (g.map k) off ↔
      ∃ q ∈ g, (k q).2.size 0 > 0 ∧ ∃ j, j < nb ∧
        m ∈ packMoves (k q).2 ((k q).1 + j * inSize) (off + seg (fun _ => nb * E) g q + j * E)
  | [], _, _, m => by simp [allToAllPack]
  | a :: t, off, hg, m => by
    rw [List.nodup_cons] at hg
    rw [mem_cons_seg hg.1 (P := fun q x => (k q).2.size 0 > 0 ∧ ∃ j, j < nb ∧
        m ∈ packMoves (k q).2 ((k q).1 + j * inSize) (x + j * E)), List.map_cons]
    unfold allToAllPack
    split
    · rename_i hp
      rw [List.mem_append, mem_allToAllPack nb inSize E k t _ hg.2]
      simp only [gt_iff_lt, hp, true_and, List.mem_flatMap, List.mem_range]
    · rename_i hp
      rw [mem_allToAllPack nb inSize E k t _ hg.2]
      simp only [gt_iff_lt, hp, false_and, false_or]

theorem mem_allToAllUnpack (stride nb : Nat) (outSize E base : Int) (k : Nat → Int × PackPlan) :
    ∀ (g : List Nat) (off : Int), g.Nodup → ∀ m, m ∈ allToAllUnpack direct stride nb outSize E base (g.map k) off ↔
      ∃ q ∈ g, (k q).2.size 0 > 0 ∧ ∃ j, j < nb ∧
        m ∈ unpackWith direct stride (k q).2 (base + (off + seg (fun _ => nb * E) g q + j * E)) ((k q).1 + j * outSize)
  | [], _, _, m => by simp [allToAllUnpack]
  | a :: t, off, hg, m => by
    rw [List.nodup_cons] at hg
    rw [mem_cons_seg hg.1 (P := fun q x => (k q).2.size 0 > 0 ∧ ∃ j, j < nb ∧
        m ∈ unpackWith direct stride (k q).2 (base + (x + j * E)) ((k q).1 + j * outSize)), List.map_cons]
    unfold allToAllUnpack
    split
    · rename_i hp
      rw [List.mem_append, mem_allToAllUnpack stride nb outSize E base k t _ hg.2]
      simp only [gt_iff_lt, hp, true_and, List.mem_flatMap, List.mem_range]
    · rename_i hp
      rw [mem_allToAllUnpack stride nb outSize E base k t _ hg.2]
      simp only [gt_iff_lt, hp, false_and, false_or]

theorem mem_zipMsgs (c : Int) (mk : Nat → Int → Msg) : ∀ (g : List Nat) (k : Nat), g.Nodup → ∀ m,
    m ∈ (g.zipIdx k).map (fun x => mk x.1 (x.2 * c)) ↔ ∃ q ∈ g, m = mk q (k * c + seg (fun _ => c) g q)
  | [], _, _, m => by simp
  | a :: t, k, hg, m => by
    rw [List.nodup_cons] at hg
    rw [List.zipIdx_cons, List.map_cons, List.mem_cons, mem_zipMsgs c mk t (k + 1) hg.2,
      mem_cons_seg hg.1 (P := fun q x => m = mk q x)]
    have : ((k + 1 : Nat) : Int) * c = k * c + c := by push_cast; ring
    rw [this]

theorem zipMsgs_peers (c : Int) (mk : Nat → Int → Msg) (hmk : ∀ q x, (mk q x).peer = q) : ∀ (g : List Nat) (k : Nat),
    ((g.zipIdx k).map (fun x => mk x.1 (x.2 * c))).map Msg.peer = g
  | [], _ => rfl
  | a :: t, k => by
    rw [List.zipIdx_cons, List.map_cons, List.map_cons, hmk, zipMsgs_peers c mk hmk t]

theorem sum_const (c : Int) : ∀ l : List Nat, (l.map fun _ => c).sum = c * l.length
  | [] => by simp
  | a :: t => by
    rw [List.map_cons, List.sum_cons, sum_const c t, List.length_cons]
    push_cast; ring

/-- The object made on rank `r`, given the groups. -/
def objA (direct : Bool) (bin bout : List Box) (g : Nat → List Nat) (r : Nat) : Option AllToAll :=
  if g r = [] then none
  else some ⟨(boxAt bin r).count, (boxAt bout r).count, g r, overlapMapAll2all false (g r) (boxAt bin r) bout,
    overlapMapAll2all (!direct) (g r) (boxAt bout r) bin, getMaxSize (g r) bin bout⟩

theorem groupsA (h : bout.length = bin.length) :
    ∃ g, GroupFacts bin bout g ∧ ∀ r, r < bin.length → makeAllToAll direct bin bout r = .ok (objA direct bin bout g r) := by
  have hseed : ∀ s p, p ∈ (if (boxAt bin s).empty then [] else [s]) ++ (if (boxAt bout s).empty then [] else [s]) ↔
      p = s ∧ ((boxAt bin s).empty = false ∨ (boxAt bout s).empty = false) := by
    intro s p
    cases (boxAt bin s).empty <;> cases (boxAt bout s).empty <;> simp
  obtain ⟨g, hg⟩ := exists_fun (n := bin.length) (P := fun s g =>
    a2aGroup (if (boxAt bin s).empty then [] else [s]) (if (boxAt bout s).empty then [] else [s])
      bin bout = .ok g ∧ g = (List.range bin.length).filter (fun i => decide (i ∈ g)) ∧
      ∀ q, q ∈ g ↔ ∃ p, (p = s ∧ ((boxAt bin s).empty = false ∨ (boxAt bout s).empty = false)) ∧ Reach bin bout p q) (by
    intro s hs
    obtain ⟨g, h1, h2, h3⟩ := a2aGroup_spec h
      (send := if (boxAt bin s).empty then [] else [s])
      (recv := if (boxAt bout s).empty then [] else [s]) (by
      intro p hp
      rw [((hseed s p).1 hp).1]; exact hs)
    refine ⟨g, h1, h2, ?_⟩
    intro q
    rw [h3]
    simp only [hseed s])
  refine ⟨g, groupFacts_of g (fun s p => p = s ∧ ((boxAt bin s).empty = false ∨ (boxAt bout s).empty = false))
    (fun s hs => (hg s hs).2) ?_ ?_, ?_⟩
  · rintro s p hs ⟨rfl, -⟩
    exact ⟨hs, .refl⟩
  · intro s q hs hq
    refine ⟨s, rfl, ?_⟩
    have hlt := hq.lt h
    rcases hq with hq | hq
    · have := (touch_boxAt hs (by rw [h]; exact hlt.2)).1 hq
      obtain ⟨p, hp⟩ := Box.empty_false_iff_mem.1 this
      exact .inl (Box.empty_false_of_mem (Box.mem_collide.1 hp).1)
    · have := (touch_boxAt (by rw [h]; exact hs) hlt.2).1 hq
      obtain ⟨p, hp⟩ := Box.empty_false_iff_mem.1 this
      exact .inr (Box.empty_false_of_mem (Box.mem_collide.1 hp).1)
  intro r hr
  unfold makeAllToAll
  rw [boxAt_get hr, getO h hr]
  dsimp only
  rw [(hg r hr).1]
  unfold objA
  by_cases hgr : g r = []
  · rw [if_pos hgr]
    show (if g r = [] then _ else _) = _
    rw [if_pos hgr]
  · rw [if_neg hgr]
    show (if g r = [] then _ else _) = _
    rw [if_neg hgr]

/-- The jobs of an alltoall reshape. -/
def jobA (direct : Bool) (bin bout : List Box) (g : Nat → List Nat) (stride nb : Nat) (r : Nat) : Job :=
  match objA direct bin bout g r with
  | none => Job.idle
  | some o => o.job direct stride nb

/-- The number of entries of each message. -/
abbrev entA (bin bout : List Box) (g : Nat → List Nat) (s : Nat) : Int := getMaxSize (g s) bin bout

theorem jobA_eq (h : bout.length = bin.length) {g : Nat → List Nat} (hg : GroupFacts bin bout g) (stride nb : Nat) {r : Nat}
    (hr : r < bin.length) :
    jobA direct bin bout g stride nb r =
      ⟨g r, allToAllPack nb (boxAt bin r).count (entA bin bout g r) ((g r).map (sendA bin bout r)) 0,
        (g r).zipIdx.map (fun m => ⟨m.1, m.2 * (nb * entA bin bout g r), nb * entA bin bout g r⟩),
        (g r).zipIdx.map (fun m => ⟨m.1, nb * entA bin bout g r * (g r).length + m.2 * (nb * entA bin bout g r),
          nb * entA bin bout g r⟩), [],
        allToAllUnpack direct stride nb (boxAt bout r).count (entA bin bout g r) (nb * entA bin bout g r * (g r).length)
          ((g r).map (recvA direct bin bout r)) 0⟩ := by
  unfold jobA objA
  by_cases hgr : g r = []
  · rw [if_pos hgr, hgr]; rfl
  · rw [if_neg hgr]
    dsimp only
    rw [overlapA_send h (fun q hq => hg.lt hr hq), overlapA_recv (fun q hq => hg.lt hr hq)]
    unfold AllToAll.job
    simp only [List.length_map]

theorem goodA (h : Setup direct bin bout) {g : Nat → List Nat} (hg : GroupFacts bin bout g) {stride : Nat}
    (hstr : 0 < stride) (nb : Nat) :
    Good bin.length nb (boxAt bin) (boxAt bout) (fun r => nb * (2 * entA bin bout g r * (g r).length))
      ((List.range bin.length).map (jobA direct bin bout g stride nb)) (fun s r => s < bin.length ∧ r ∈ g s) (fun _ => False)
      (fun s r => seg (fun _ => nb * entA bin bout g s) (g s) r)
      (fun r s => nb * entA bin bout g r * (g r).length + seg (fun _ => nb * entA bin bout g r) (g r) s)
      (fun s _ => entA bin bout g s) (fun r => nb * entA bin bout g r * (g r).length) := by
  have hc0 := fun s r => cnt_nonneg (bin := bin) (bout := bout) s r
  have hnb : (0 : Int) ≤ nb := by positivity
  have hE0 : ∀ s, 0 ≤ nb * entA bin bout g s := fun s => mul_nonneg hnb (getMaxSize_nonneg _ _ _)
  have hE : ∀ s r, s < bin.length → r ∈ g s → entA bin bout g r = entA bin bout g s := by
    intro s r hs hr
    unfold entA
    rw [hg.same s r hs hr]
  have hL : ∀ s r, s < bin.length → r ∈ g s → (g r).length = (g s).length := by
    intro s r hs hr
    rw [hg.same s r hs hr]
  have pS : ∀ s r, r ∈ g s → 0 ≤ seg (fun _ => nb * entA bin bout g s) (g s) r ∧
      seg (fun _ => nb * entA bin bout g s) (g s) r + nb * entA bin bout g s ≤ nb * entA bin bout g s * (g s).length := by
    intro s r hr
    have h1 := seg_nonneg (f := fun _ => nb * entA bin bout g s) (l := g s) (fun a _ => hE0 s) r
    have h2 := seg_le (f := fun _ => nb * entA bin bout g s) (l := g s) (fun a _ => hE0 s) hr
    rw [sum_const] at h2
    exact ⟨h1, h2⟩
  have hjob : ∀ {s : Nat} {job : Job}, ((List.range bin.length).map (jobA direct bin bout g stride nb))[s]? = some job →
      s < bin.length ∧ job = jobA direct bin bout g stride nb s := fun hj => range_map_get.1 hj
  refine ⟨by simp, ?_, by simp, ?_, by simp, ?_, ?_, ?_, ?_, ?_, ?_, ?_, ?_, ?_, ?_, ?_, ?_, ?_, ?_⟩
  · -- cover
    intro s r hs hr hc
    exact .inl ⟨hs, hg.nbr s r hs (cnt_pos_adj h.len hs hr hc)⟩
  · rintro s r ⟨hs, hr⟩
    exact ⟨hs, hg.lt hs hr⟩
  · -- stride
    rintro s r (⟨hs, hr⟩ | ⟨-, hf⟩)
    · exact cnt_le_getMaxSize h.len (hg.self s r hs hr) hr hs (hg.lt hs hr)
    · exact hf.elim
  · -- sendIn
    rintro s r ⟨hs, hr⟩
    exact pS s r hr
  · -- sendApart
    rintro s r r' ⟨hs, hr⟩ ⟨-, hr'⟩ hne
    exact seg_apart (f := fun _ => nb * entA bin bout g s) (l := g s) (fun a _ => hE0 s) hr hr' hne
  · -- recvIn
    rintro s r (⟨hs, hr⟩ | ⟨-, hf⟩)
    · have := pS r s (hg.symm hs hr)
      rw [← hE s r hs hr]
      have h3 : (nb : Int) * (2 * entA bin bout g r * (g r).length) = nb * entA bin bout g r * (g r).length +
        nb * entA bin bout g r * (g r).length := by ring
      rw [h3]
      omega
    · exact hf.elim
  · -- recvApart
    rintro s s' r (⟨hs, hr⟩ | ⟨-, hf⟩) (⟨hs', hr'⟩ | ⟨-, hf'⟩) hne
    · have := seg_apart (f := fun _ => nb * entA bin bout g r) (l := g r) (fun a _ => hE0 r) (hg.symm hs hr)
        (hg.symm hs' hr') hne
      rw [← hE s r hs hr, ← hE s' r hs' hr']
      omega
    · exact hf'.elim
    · exact hf.elim
    · exact hf.elim
  · -- midIn
    intro s hs
    have h1 : 0 ≤ nb * entA bin bout g s * (g s).length := mul_nonneg (hE0 s) (by positivity)
    have h3 : (nb : Int) * (2 * entA bin bout g s * (g s).length) = nb * entA bin bout g s * (g s).length +
        nb * entA bin bout g s * (g s).length := by ring
    rw [h3]
    omega
  · -- packs
    intro s job hj m
    obtain ⟨hs, rfl⟩ := hjob hj
    rw [jobA_eq h.len hg _ _ hs]
    dsimp only
    rw [mem_allToAllPack nb _ _ _ (g s) 0 (hg.nodup hs)]
    constructor
    · rintro ⟨q, hq, hc, j, hj, hm⟩
      rw [sendA_pos] at hc
      rw [sendA_eq hc] at hm
      dsimp only at hm
      rw [mem_packEntry h hs hc] at hm
      obtain ⟨p, hpI, hpO, rfl⟩ := hm
      exact ⟨q, j, p, ⟨hs, hq⟩, hj, hpI, hpO, by rw [zero_add]⟩
    · rintro ⟨q, j, p, ⟨-, hq⟩, hj, hpI, hpO, rfl⟩
      have hc : 0 < cnt bin bout s q := msgCount_pos hpI hpO
      refine ⟨q, hq, sendA_pos.2 hc, j, hj, ?_⟩
      rw [sendA_eq hc]
      dsimp only
      rw [mem_packEntry h hs hc]
      exact ⟨p, hpI, hpO, by rw [zero_add]⟩
  · -- sends
    intro s job hj m
    obtain ⟨hs, rfl⟩ := hjob hj
    rw [jobA_eq h.len hg _ _ hs]
    dsimp only
    rw [mem_zipMsgs (nb * entA bin bout g s) (fun q d => ⟨q, d, nb * entA bin bout g s⟩) (g s) 0 (hg.nodup hs)]
    constructor
    · rintro ⟨q, hq, rfl⟩
      exact ⟨q, ⟨hs, hq⟩, by simp⟩
    · rintro ⟨q, ⟨-, hq⟩, rfl⟩
      exact ⟨q, hq, by simp⟩
  · -- sendsNodup
    intro s job hj
    obtain ⟨hs, rfl⟩ := hjob hj
    rw [jobA_eq h.len hg _ _ hs]
    dsimp only
    rw [zipMsgs_peers (nb * entA bin bout g s) (fun q d => ⟨q, d, nb * entA bin bout g s⟩) (fun _ _ => rfl)]
    exact hg.nodup hs
  · -- recvs
    intro r job hj m
    obtain ⟨hr, rfl⟩ := hjob hj
    rw [jobA_eq h.len hg _ _ hr]
    dsimp only
    rw [mem_zipMsgs (nb * entA bin bout g r)
      (fun q d => ⟨q, nb * entA bin bout g r * (g r).length + d, nb * entA bin bout g r⟩) (g r) 0 (hg.nodup hr)]
    constructor
    · rintro ⟨q, hq, rfl⟩
      refine ⟨q, ⟨hg.lt hr hq, hg.symm hr hq⟩, ?_⟩
      rw [hE r q hr hq]; simp
    · rintro ⟨q, ⟨hqn, hq⟩, rfl⟩
      refine ⟨q, hg.symm hqn hq, ?_⟩
      rw [hE q r hqn hq]; simp
  · -- recvsNodup
    intro r job hj
    obtain ⟨hr, rfl⟩ := hjob hj
    rw [jobA_eq h.len hg _ _ hr]
    dsimp only
    rw [zipMsgs_peers (nb * entA bin bout g r)
      (fun q d => ⟨q, nb * entA bin bout g r * (g r).length + d, nb * entA bin bout g r⟩) (fun _ _ => rfl)]
    exact hg.nodup hr
  · -- groups
    intro r job hj q hq
    obtain ⟨hr, rfl⟩ := hjob hj
    rw [jobA_eq h.len hg _ _ hr] at hq ⊢
    dsimp only at hq ⊢
    refine ⟨jobA direct bin bout g stride nb q, range_map_get.2 ⟨hg.lt hr hq, rfl⟩, ?_⟩
    rw [jobA_eq h.len hg _ _ (hg.lt hr hq)]
    exact hg.same r q hr hq
  · -- selfPacks
    intro s job hj m
    obtain ⟨hs, rfl⟩ := hjob hj
    rw [jobA_eq h.len hg _ _ hs]
    simp
  · -- unpacks
    intro r job hj m
    obtain ⟨hr, rfl⟩ := hjob hj
    rw [jobA_eq h.len hg _ _ hr]
    dsimp only
    rw [mem_allToAllUnpack stride nb _ _ _ _ (g r) 0 (hg.nodup hr)]
    constructor
    · rintro ⟨q, hq, hc, j, hj, hm⟩
      have hqn := hg.lt hr hq
      rw [recvA_pos] at hc
      rw [recvA_eq hc] at hm
      dsimp only at hm
      rw [mem_unpackEntry h hstr hr hqn hc] at hm
      obtain ⟨p, hpI, hpO, rfl⟩ := hm
      refine ⟨q, j, p, hqn, hj, hpI, hpO, ?_⟩
      rw [hE r q hr hq]
      congr 1
      ring
    · rintro ⟨q, j, p, hqn, hj, hpI, hpO, rfl⟩
      have hc : 0 < cnt bin bout q r := msgCount_pos hpI hpO
      have hq : q ∈ g r := hg.nbr r q hr (cnt_pos_adj h.len hqn hr hc).symm
      refine ⟨q, hq, recvA_pos.2 hc, j, hj, ?_⟩
      rw [recvA_eq hc]
      dsimp only
      rw [mem_unpackEntry h hstr hr hqn hc]
      refine ⟨p, hpI, hpO, ?_⟩
      rw [hE r q hr hq]
      congr 1
      ring

end Verif
