import Verif.GoodV

/-!
# The layout used by the point-to-point reshapes is sound
-/

namespace Verif
variable {direct : Bool} {bin bout : List Box}

theorem mem_p2pPack (nb : Nat) (inSize : Int) (f : Nat → Int) : ∀ (X : List Entry) (off : Int), (X.map Entry.proc).Nodup →
    (∀ e ∈ X, f e.proc = e.size) → ∀ m, m ∈ p2pPack nb inSize X off ↔
      ∃ e ∈ X, ∃ j, j < nb ∧
        m ∈ packMoves e.plan (j * inSize + e.offset) (off + nb * seg f (X.map Entry.proc) e.proc + j * e.size)
  | [], _, _, _, m => by simp [p2pPack]
  | a :: t, off, hn, hf, m => by
    simp only [List.map_cons, List.nodup_cons] at hn
    unfold p2pPack
    rw [List.mem_append, mem_p2pPack nb inSize f t _ hn.2 (fun e he => hf e (by simp [he]))]
    simp only [List.mem_flatMap, List.mem_range, List.mem_cons, exists_eq_or_imp, List.map_cons, seg_cons, if_true,
      mul_zero, add_zero]
    apply or_congr Iff.rfl
    apply exists_congr; intro e
    apply and_congr_right; intro he
    have hne : a.proc ≠ e.proc := fun hc => hn.1 (hc ▸ List.mem_map_of_mem he)
    rw [if_neg hne, hf a (by simp), mul_add, ← add_assoc]

theorem mem_p2pSends (nb : Nat) (f : Nat → Int) : ∀ (X : List Entry) (off : Int), (X.map Entry.proc).Nodup →
    (∀ e ∈ X, f e.proc = e.size) → ∀ m, m ∈ p2pSends nb X off ↔
      ∃ e ∈ X, m = ⟨e.proc, off + nb * seg f (X.map Entry.proc) e.proc, nb * e.size⟩
  | [], _, _, _, m => by simp [p2pSends]
  | a :: t, off, hn, hf, m => by
    simp only [List.map_cons, List.nodup_cons] at hn
    unfold p2pSends
    rw [List.mem_cons, mem_p2pSends nb f t _ hn.2 (fun e he => hf e (by simp [he]))]
    simp only [List.mem_cons, exists_eq_or_imp, List.map_cons, seg_cons, if_true, mul_zero, add_zero]
    apply or_congr Iff.rfl
    apply exists_congr; intro e
    apply and_congr_right; intro he
    have hne : a.proc ≠ e.proc := fun hc => hn.1 (hc ▸ List.mem_map_of_mem he)
    rw [if_neg hne, hf a (by simp), mul_add, ← add_assoc]

theorem p2pSends_peers (nb : Nat) : ∀ (X : List Entry) (off : Int), (p2pSends nb X off).map Msg.peer = X.map Entry.proc
  | [], _ => rfl
  | a :: t, off => by
    unfold p2pSends
    rw [List.map_cons, p2pSends_peers nb t, List.map_cons]

theorem recvLocs_get (f : Nat → Int) : ∀ (U : List Entry) (off : Int), (U.map Entry.proc).Nodup →
    (∀ e ∈ U, f e.proc = e.size) → ∀ (i : Nat) e, U[i]? = some e →
      (recvLocs (U.map Entry.size) off)[i]? = some (off + seg f (U.map Entry.proc) e.proc)
  | [], _, _, _, i, e, h => by simp at h
  | [a], off, _, _, i, e, h => by
    cases i with
    | zero =>
      simp at h; subst h
      simp [recvLocs, seg]
    | succ i => simp at h
  | a :: b :: t, off, hn, hf, i, e, h => by
    rw [List.map_cons, List.nodup_cons] at hn
    cases i with
    | zero =>
      simp at h; subst h
      simp [recvLocs, seg]
    | succ i =>
      have h' : (b :: t)[i]? = some e := by simpa using h
      have ih := recvLocs_get f (b :: t) (off + a.size) hn.2 (fun e he => hf e (by simp at he ⊢; tauto)) i e h'
      have hne : a.proc ≠ e.proc := fun hc => hn.1 (hc ▸ List.mem_map_of_mem (List.mem_of_getElem? h'))
      have e1 : recvLocs (List.map Entry.size (a :: b :: t)) off =
          off :: recvLocs (List.map Entry.size (b :: t)) (off + a.size) := rfl
      rw [e1, List.getElem?_cons_succ, ih, List.map_cons (a := a), seg_cons, if_neg hne, hf a (by simp), add_assoc]

theorem recvLocs_length : ∀ (l : List Int) (off : Int), l ≠ [] → (recvLocs l off).length = l.length
  | [], _, h => absurd rfl h
  | [_], _, _ => rfl
  | a :: b :: t, off, _ => by
    have : recvLocs (a :: b :: t) off = off :: recvLocs (b :: t) (off + a) := rfl
    rw [this, List.length_cons, recvLocs_length (b :: t) _ (by simp)]
    rfl

/-- Both lists of entries with the entry of the rank itself split off. -/
theorem split_self (h : bout.length = bin.length) {r : Nat} (hr : r < bin.length) :
    ∃ lp lu, sendEntries bout r (boxAt bin r) = lp ++ (if 0 < cnt bin bout r r then [sendE bin bout r r] else []) ∧
      recvEntries direct bin r (boxAt bout r) = lu ++ (if 0 < cnt bin bout r r then [recvE direct bin bout r r] else []) ∧
      r ∉ lp.map Entry.proc ∧ r ∉ lu.map Entry.proc := by
  have hm : r < bout.length := by rw [h]; exact hr
  obtain ⟨lp, h1, h2⟩ := overlapG_last (mk := fun _ ov => directPlan (boxAt bin r) ov) (source := boxAt bin r) hm
  obtain ⟨lu, h3, h4⟩ := overlapG_last (mk := recvPlan direct (boxAt bout r)) (source := boxAt bout r) hr
  refine ⟨lp, lu, ?_, ?_, h2, h4⟩
  · rw [sendEntries_eq hm, h1, ← look_overlapG hm, ← sendEntries_eq hm, look_send h hr hr]
    split <;> rfl
  · rw [recvEntries_eq hr, h3, ← look_overlapG hr, ← recvEntries_eq hr, look_recv h hr hr]
    split <;> rfl

theorem mem_sendEntries (h : bout.length = bin.length) {s : Nat} (hs : s < bin.length) {e : Entry} :
    e ∈ sendEntries bout s (boxAt bin s) ↔ ∃ q, q < bin.length ∧ 0 < cnt bin bout s q ∧ e = sendE bin bout s q := by
  constructor
  · intro he
    have h1 := (mem_send_procs h hs).1 (List.mem_map_of_mem (f := Entry.proc) he)
    refine ⟨e.proc, h1.1, h1.2, ?_⟩
    have h2 := (look_some (send_nodup h hs)).2 ⟨he, rfl⟩
    rw [look_send h hs h1.1, if_pos h1.2] at h2
    exact (Option.some.inj h2).symm
  · rintro ⟨q, hq, hc, rfl⟩
    refine ((look_some (q := q) (send_nodup h hs)).1 ?_).1
    rw [look_send h hs hq, if_pos hc]

theorem mem_recvEntries (h : bout.length = bin.length) {r : Nat} (hr : r < bin.length) {e : Entry} :
    e ∈ recvEntries direct bin r (boxAt bout r) ↔
      ∃ q, q < bin.length ∧ 0 < cnt bin bout q r ∧ e = recvE direct bin bout r q := by
  constructor
  · intro he
    have h1 := (mem_recv_procs h hr).1 (List.mem_map_of_mem (f := Entry.proc) he)
    refine ⟨e.proc, h1.1, h1.2, ?_⟩
    have h2 := (look_some (recv_nodup hr)).2 ⟨he, rfl⟩
    rw [look_recv h hr h1.1, if_pos h1.2] at h2
    exact (Option.some.inj h2).symm
  · rintro ⟨q, hq, hc, rfl⟩
    refine ((look_some (q := q) (recv_nodup hr)).1 ?_).1
    rw [look_recv h hr hq, if_pos hc]

theorem sendE_proc (s q : Nat) : (sendE bin bout s q).proc = q := rfl

theorem recvE_proc (r q : Nat) : (recvE direct bin bout r q).proc = q := rfl

/-- The object made on rank `r`. -/
def objP (direct : Bool) (bin bout : List Box) (r : Nat) : PointToPoint :=
  ⟨(boxAt bin r).count, (boxAt bout r).count, decide (0 < cnt bin bout r r), sendEntries bout r (boxAt bin r),
    recvEntries direct bin r (boxAt bout r), recvLocs ((recvEntries direct bin r (boxAt bout r)).map Entry.size) 0⟩

theorem makeP (h : bout.length = bin.length) {r : Nat} (hr : r < bin.length) :
    makePointToPoint direct bin bout r = .ok (objP direct bin bout r) := by
  unfold makePointToPoint
  rw [boxAt_get hr, getO h hr]
  dsimp only
  unfold objP
  congr 2
  obtain ⟨lp, lu, -, h2, -, h4⟩ := split_self h hr
  rw [h2]
  by_cases hc : 0 < cnt bin bout r r
  · rw [if_pos hc]
    simp [hc, recvE_proc]
  · rw [if_neg hc, List.append_nil]
    simp only [hc, decide_false, decide_eq_false_iff_not]
    intro hh
    rw [Option.map_eq_some_iff] at hh
    obtain ⟨e, he, hp⟩ := hh
    exact h4 (hp ▸ List.mem_map_of_mem (List.mem_of_getLast? he))

/-- The ranks that rank `s` sends to. -/
def destP (bin bout : List Box) (s : Nat) : List Nat :=
  (dropSelf (decide (0 < cnt bin bout s s)) (sendEntries bout s (boxAt bin s))).map Entry.proc

/-- The ranks that rank `r` receives from, itself included. -/
def origP (direct : Bool) (bin bout : List Box) (r : Nat) : List Nat :=
  (recvEntries direct bin r (boxAt bout r)).map Entry.proc

theorem dropSelf_prefix (b : Bool) (l : List Entry) {i : Nat} {e : Entry} (h : (dropSelf b l)[i]? = some e) : l[i]? = some e := by
  unfold dropSelf at h
  split at h
  · rw [List.getElem?_dropLast] at h
    split at h
    · exact h
    · cases h
  · exact h

theorem dropSelf_nodup {b : Bool} {l : List Entry} (h : (l.map Entry.proc).Nodup) : ((dropSelf b l).map Entry.proc).Nodup := by
  unfold dropSelf
  split
  · exact h.sublist ((List.dropLast_sublist l).map _)
  · exact h

theorem mem_dropSend (h : bout.length = bin.length) {s : Nat} (hs : s < bin.length) {e : Entry} :
    e ∈ dropSelf (decide (0 < cnt bin bout s s)) (sendEntries bout s (boxAt bin s)) ↔
      ∃ q, q < bin.length ∧ q ≠ s ∧ 0 < cnt bin bout s q ∧ e = sendE bin bout s q := by
  have hmem := fun e => mem_sendEntries h hs (e := e)
  obtain ⟨lp, lu, h1, -, h3, -⟩ := split_self (direct := true) h hs
  have hlp : dropSelf (decide (0 < cnt bin bout s s)) (sendEntries bout s (boxAt bin s)) = lp := by
    rw [h1]
    unfold dropSelf
    by_cases hc : 0 < cnt bin bout s s
    · simp [hc]
    · simp [hc]
  rw [hlp]
  constructor
  · intro he
    obtain ⟨q, hq, hc, rfl⟩ := (hmem e).1 (by rw [h1]; simp [he])
    refine ⟨q, hq, ?_, hc, rfl⟩
    rintro rfl
    exact h3 (by have := List.mem_map_of_mem (f := Entry.proc) he; exact this)
  · rintro ⟨q, hq, hne, hc, rfl⟩
    have := (hmem (sendE bin bout s q)).2 ⟨q, hq, hc, rfl⟩
    rw [h1, List.mem_append] at this
    rcases this with this | this
    · exact this
    · split at this
      · rw [List.mem_singleton] at this
        exact absurd (congrArg Entry.proc this) hne
      · simp at this

theorem mem_dropRecv (h : bout.length = bin.length) {r : Nat} (hr : r < bin.length) {e : Entry} :
    e ∈ dropSelf (decide (0 < cnt bin bout r r)) (recvEntries direct bin r (boxAt bout r)) ↔
      ∃ q, q < bin.length ∧ q ≠ r ∧ 0 < cnt bin bout q r ∧ e = recvE direct bin bout r q := by
  have hmem := fun e => mem_recvEntries (direct := direct) h hr (e := e)
  obtain ⟨lp, lu, -, h1, -, h3⟩ := split_self h hr
  have hlp : dropSelf (decide (0 < cnt bin bout r r)) (recvEntries direct bin r (boxAt bout r)) = lu := by
    rw [h1]
    unfold dropSelf
    by_cases hc : 0 < cnt bin bout r r
    · simp [hc]
    · simp [hc]
  rw [hlp]
  constructor
  · intro he
    obtain ⟨q, hq, hc, rfl⟩ := (hmem e).1 (by rw [h1]; simp [he])
    refine ⟨q, hq, ?_, hc, rfl⟩
    rintro rfl
    exact h3 (by have := List.mem_map_of_mem (f := Entry.proc) he; exact this)
  · rintro ⟨q, hq, hne, hc, rfl⟩
    have := (hmem (recvE direct bin bout r q)).2 ⟨q, hq, hc, rfl⟩
    rw [h1, List.mem_append] at this
    rcases this with this | this
    · exact this
    · split at this
      · rw [List.mem_singleton] at this
        exact absurd (congrArg Entry.proc this) hne
      · simp at this

/-- Number of receive requests on rank `r`. -/
def requestsP (o : PointToPoint) : Nat := (dropSelf o.selfToSelf o.unpacks).length

theorem goodP (h : Setup direct bin bout) {stride : Nat} (hstr : 0 < stride) (nb : Nat) (done : Nat → List Nat)
    (hdone : ∀ r, r < bin.length → (done r).Perm (List.range (requestsP (objP direct bin bout r)))) :
    Good bin.length nb (boxAt bin) (boxAt bout) (fun r => nb * ((boxAt bin r).count + (boxAt bout r).count))
      ((List.range bin.length).map fun r => (objP direct bin bout r).job direct stride nb (done r))
      (fun s r => s < bin.length ∧ r < bin.length ∧ r ≠ s ∧ 0 < cnt bin bout s r)
      (fun s => s < bin.length ∧ 0 < cnt bin bout s s)
      (fun s r => nb * seg (fun q => cnt bin bout s q) (destP bin bout s) r)
      (fun r s => nb * (boxAt bin r).count + nb * seg (fun q => cnt bin bout q r) (origP direct bin bout r) s)
      (cnt bin bout) (fun r => nb * (boxAt bin r).count) := by
  have hc0 := fun s r => cnt_nonneg (bin := bin) (bout := bout) s r
  have hnb : (0 : Int) ≤ nb := by positivity
  have hbI := fun s => Box.count_nonneg (boxAt bin s)
  have hbO := fun s => Box.count_nonneg (boxAt bout s)
  have dN : ∀ s, s < bin.length → (destP bin bout s).Nodup := fun s hs => dropSelf_nodup (send_nodup h.len hs)
  have oN : ∀ r, r < bin.length → (origP direct bin bout r).Nodup := fun r hr => recv_nodup hr
  have dM : ∀ s, s < bin.length → ∀ q, q ∈ destP bin bout s ↔ q < bin.length ∧ q ≠ s ∧ 0 < cnt bin bout s q := by
    intro s hs q
    unfold destP
    rw [List.mem_map]
    constructor
    · rintro ⟨e, he, rfl⟩
      obtain ⟨q, h1, h2, h3, rfl⟩ := (mem_dropSend h.len hs).1 he
      exact ⟨h1, h2, h3⟩
    · rintro ⟨h1, h2, h3⟩
      exact ⟨_, (mem_dropSend h.len hs).2 ⟨q, h1, h2, h3, rfl⟩, rfl⟩
  have oM : ∀ r, r < bin.length → ∀ q, q ∈ origP direct bin bout r ↔ q < bin.length ∧ 0 < cnt bin bout q r :=
    fun r hr q => mem_recv_procs h.len hr
  have hsum : ∀ s, s < bin.length → ((destP bin bout s).map fun q => cnt bin bout s q).sum ≤ (boxAt bin s).count := fun s hs =>
    le_trans (sum_le_range (fun a _ => hc0 s a) (dN s hs) (fun a ha => ((dM s hs a).1 ha).1)) (h.sumOut s)
  have hsum' : ∀ r, r < bin.length → ((origP direct bin bout r).map fun q => cnt bin bout q r).sum ≤ (boxAt bout r).count :=
    fun r hr => le_trans (sum_le_range (f := fun q => cnt bin bout q r) (fun a _ => hc0 a r) (oN r hr)
      (fun a ha => ((oM r hr a).1 ha).1)) (h.sumIn r)
  have hpart : ∀ s r, (s < bin.length ∧ r < bin.length ∧ r ≠ s ∧ 0 < cnt bin bout s r) ∨
      s = r ∧ s < bin.length ∧ 0 < cnt bin bout s s → r < bin.length ∧ s ∈ origP direct bin bout r := by
    rintro s r (⟨hs, hr, -, hc⟩ | ⟨rfl, hs, hc⟩)
    · exact ⟨hr, (oM r hr s).2 ⟨hs, hc⟩⟩
    · exact ⟨hs, (oM s hs s).2 ⟨hs, hc⟩⟩
  have hfS : ∀ s, s < bin.length → ∀ e ∈ dropSelf (decide (0 < cnt bin bout s s)) (sendEntries bout s (boxAt bin s)),
      cnt bin bout s e.proc = e.size := by
    intro s hs e he
    obtain ⟨q, -, -, -, rfl⟩ := (mem_dropSend h.len hs).1 he
    rw [sendE_size, sendE_proc]
  have hfR : ∀ r, r < bin.length → ∀ e ∈ recvEntries direct bin r (boxAt bout r),
      (fun q => cnt bin bout q r) e.proc = e.size := by
    intro r hr e he
    obtain ⟨q, -, -, rfl⟩ := (mem_recvEntries h.len hr).1 he
    rw [recvE_size, recvE_proc]
  have hloc : ∀ r, r < bin.length → ∀ (i : Nat) e, (recvEntries direct bin r (boxAt bout r))[i]? = some e →
      (recvLocs ((recvEntries direct bin r (boxAt bout r)).map Entry.size) 0)[i]? =
        some (seg (fun q => cnt bin bout q r) (origP direct bin bout r) e.proc) := by
    intro r hr i e he
    have := recvLocs_get (fun q => cnt bin bout q r) _ 0 (recv_nodup hr) (hfR r hr) i e he
    rwa [zero_add] at this
  have hlast : ∀ r, r < bin.length → 0 < cnt bin bout r r →
      (sendEntries bout r (boxAt bin r)).getLast? = some (sendE bin bout r r) ∧
      (recvEntries direct bin r (boxAt bout r)).getLast? = some (recvE direct bin bout r r) ∧
      (recvLocs ((recvEntries direct bin r (boxAt bout r)).map Entry.size) 0).getLast? =
        some (seg (fun q => cnt bin bout q r) (origP direct bin bout r) r) := by
    intro r hr hc
    obtain ⟨lp, lu, h1, h2, -, -⟩ := split_self h.len hr
    rw [if_pos hc] at h1 h2
    refine ⟨by rw [h1]; simp, by rw [h2]; simp, ?_⟩
    have hne : (recvEntries direct bin r (boxAt bout r)).map Entry.size ≠ [] := by rw [h2]; simp
    rw [List.getLast?_eq_getElem?, recvLocs_length _ _ hne, List.length_map]
    rw [hloc r hr _ (recvE direct bin bout r r) (by rw [h2]; simp)]
    rfl
  have hjob : ∀ {s : Nat} {job : Job}, ((List.range bin.length).map fun r =>
      (objP direct bin bout r).job direct stride nb (done r))[s]? = some job →
      s < bin.length ∧ job = (objP direct bin bout s).job direct stride nb (done s) := fun hj => range_map_get.1 hj
  refine ⟨by simp, ?_, ?_, ?_, ?_, ?_, ?_, ?_, ?_, ?_, ?_, ?_, ?_, ?_, ?_, ?_, ?_, ?_, ?_⟩
  · -- cover
    intro s r hs hr hc
    by_cases hsr : s = r
    · subst hsr; exact .inr ⟨rfl, hs, hc⟩
    · exact .inl ⟨hs, hr, fun e => hsr e.symm, hc⟩
  · rintro s ⟨-, -, hne, -⟩
    exact absurd rfl hne
  · rintro s r ⟨hs, hr, -, -⟩
    exact ⟨hs, hr⟩
  · rintro s ⟨hs, -⟩; exact hs
  · intros; exact le_rfl
  · -- sendIn
    rintro s r ⟨hs, hr, hne, hc⟩
    have hm := (dM s hs r).2 ⟨hr, hne, hc⟩
    have h1 := seg_nonneg (f := fun q => cnt bin bout s q) (l := destP bin bout s) (fun a _ => hc0 s a) r
    have h2 := seg_le (f := fun q => cnt bin bout s q) (l := destP bin bout s) (fun a _ => hc0 s a) hm
    refine ⟨mul_nonneg hnb h1, ?_⟩
    rw [← mul_add]
    exact mul_le_mul_of_nonneg_left (le_trans h2 (hsum s hs)) hnb
  · -- sendApart
    rintro s r r' ⟨hs, hr, hne, hc⟩ ⟨-, hr', hne', hc'⟩ hrr
    have := seg_apart (f := fun q => cnt bin bout s q) (l := destP bin bout s) (fun a _ => hc0 s a)
      ((dM s hs r).2 ⟨hr, hne, hc⟩) ((dM s hs r').2 ⟨hr', hne', hc'⟩) hrr
    rw [← mul_add, ← mul_add]
    exact this.imp (fun h => mul_le_mul_of_nonneg_left h hnb) (fun h => mul_le_mul_of_nonneg_left h hnb)
  · -- recvIn
    intro s r hsr
    obtain ⟨hr, hm⟩ := hpart s r hsr
    have h1 := seg_nonneg (f := fun q => cnt bin bout q r) (l := origP direct bin bout r) (fun a _ => hc0 a r) s
    have h2 := seg_le (f := fun q => cnt bin bout q r) (l := origP direct bin bout r) (fun a _ => hc0 a r) hm
    have h3 := mul_nonneg hnb h1
    have h4 := mul_le_mul_of_nonneg_left (le_trans h2 (hsum' r hr)) hnb
    rw [mul_add] at h4
    rw [mul_add]
    omega
  · -- recvApart
    intro s s' r hsr hsr' hne
    obtain ⟨hr, hm⟩ := hpart s r hsr
    obtain ⟨-, hm'⟩ := hpart s' r hsr'
    have := seg_apart (f := fun q => cnt bin bout q r) (l := origP direct bin bout r) (fun a _ => hc0 a r) hm hm' hne
    have := this.imp (fun h => mul_le_mul_of_nonneg_left h hnb) (fun h => mul_le_mul_of_nonneg_left h hnb)
    rw [mul_add, mul_add] at this
    omega
  · -- midIn
    intro s hs
    have h1 := mul_nonneg hnb (hbI s)
    have h2 := mul_nonneg hnb (hbO s)
    rw [mul_add]
    omega
  · -- packs
    intro s job hj m
    obtain ⟨hs, rfl⟩ := hjob hj
    unfold PointToPoint.job objP
    dsimp only
    rw [mem_p2pPack nb _ (fun q => cnt bin bout s q) _ _ (dropSelf_nodup (send_nodup h.len hs)) (hfS s hs)]
    constructor
    · rintro ⟨e, he, j, hj, hm⟩
      obtain ⟨q, hq, hne, hc, rfl⟩ := (mem_dropSend h.len hs).1 he
      rw [add_comm ((j : Int) * _), mem_packEntry h hs hc] at hm
      obtain ⟨p, hpI, hpO, rfl⟩ := hm
      refine ⟨q, j, p, ⟨hs, hq, hne, hc⟩, hj, hpI, hpO, ?_⟩
      rw [sendE_size, zero_add]
      rfl
    · rintro ⟨q, j, p, ⟨-, hq, hne, hc⟩, hj, hpI, hpO, rfl⟩
      refine ⟨_, (mem_dropSend h.len hs).2 ⟨q, hq, hne, hc, rfl⟩, j, hj, ?_⟩
      rw [add_comm ((j : Int) * _) (sendE bin bout s q).offset, mem_packEntry h hs hc]
      refine ⟨p, hpI, hpO, ?_⟩
      rw [sendE_size, zero_add]
      rfl
  · -- sends
    intro s job hj m
    obtain ⟨hs, rfl⟩ := hjob hj
    unfold PointToPoint.job objP
    dsimp only
    rw [mem_p2pSends nb (fun q => cnt bin bout s q) _ _ (dropSelf_nodup (send_nodup h.len hs)) (hfS s hs)]
    constructor
    · rintro ⟨e, he, rfl⟩
      obtain ⟨q, hq, hne, hc, rfl⟩ := (mem_dropSend h.len hs).1 he
      refine ⟨q, ⟨hs, hq, hne, hc⟩, ?_⟩
      rw [sendE_size, sendE_proc, zero_add]
      rfl
    · rintro ⟨q, ⟨-, hq, hne, hc⟩, rfl⟩
      refine ⟨_, (mem_dropSend h.len hs).2 ⟨q, hq, hne, hc, rfl⟩, ?_⟩
      rw [sendE_size, sendE_proc, zero_add]
      rfl
  · -- sendsNodup
    intro s job hj
    obtain ⟨hs, rfl⟩ := hjob hj
    unfold PointToPoint.job objP
    dsimp only
    rw [p2pSends_peers]
    exact dropSelf_nodup (send_nodup h.len hs)
  · -- recvs
    intro r job hj m
    obtain ⟨hr, rfl⟩ := hjob hj
    unfold PointToPoint.job objP
    dsimp only
    rw [List.mem_map]
    constructor
    · rintro ⟨⟨e, loc⟩, hx, rfl⟩
      obtain ⟨i, hi⟩ := List.mem_iff_getElem?.1 hx
      rw [List.getElem?_zip_eq_some] at hi
      obtain ⟨h1, h2⟩ := hi
      dsimp only at h1 h2
      rw [hloc r hr i e (dropSelf_prefix _ _ h1)] at h2
      obtain rfl := Option.some.inj h2
      obtain ⟨q, hq, hne, hc, rfl⟩ := (mem_dropRecv h.len hr).1 (List.mem_of_getElem? h1)
      refine ⟨q, ⟨hq, hr, fun e => hne e.symm, hc⟩, ?_⟩
      rw [recvE_size]; rfl
    · rintro ⟨q, ⟨hq, -, hne, hc⟩, rfl⟩
      have hm := (mem_dropRecv (direct := direct) h.len hr).2 ⟨q, hq, fun e => hne e.symm, hc, rfl⟩
      obtain ⟨i, hi⟩ := List.mem_iff_getElem?.1 hm
      have hl := hloc r hr i _ (dropSelf_prefix _ _ hi)
      refine ⟨(_, _), List.mem_iff_getElem?.2 ⟨i, List.getElem?_zip_eq_some.2 ⟨hi, hl⟩⟩, ?_⟩
      show Msg.mk q _ (nb * (recvE direct bin bout r q).size) = _
      rw [recvE_size]; rfl
  · -- recvsNodup
    intro r job hj
    obtain ⟨hr, rfl⟩ := hjob hj
    unfold PointToPoint.job objP
    dsimp only
    rw [List.map_map]
    have : (Msg.peer ∘ fun (m : Entry × Int) => (⟨m.1.proc, nb * (boxAt bin r).count + nb * m.2, nb * m.1.size⟩ : Msg)) =
        Entry.proc ∘ Prod.fst := rfl
    rw [this, ← List.map_map]
    have hle : (dropSelf (decide (0 < cnt bin bout r r)) (recvEntries direct bin r (boxAt bout r))).length ≤
        (recvLocs ((recvEntries direct bin r (boxAt bout r)).map Entry.size) 0).length := by
      by_cases hU : recvEntries direct bin r (boxAt bout r) = []
      · rw [hU]; unfold dropSelf; split <;> simp
      · rw [recvLocs_length _ _ (by simpa using hU), List.length_map]
        unfold dropSelf
        split
        · simp
        · exact le_rfl
    rw [List.map_fst_zip hle]
    exact dropSelf_nodup (recv_nodup hr)
  · -- groups
    intro r job hj q hq
    obtain ⟨hr, rfl⟩ := hjob hj
    simp [PointToPoint.job] at hq
  · -- selfPacks
    intro s job hj m
    obtain ⟨hs, rfl⟩ := hjob hj
    unfold PointToPoint.job objP
    dsimp only
    by_cases hc : 0 < cnt bin bout s s
    · obtain ⟨h1, h2, h3⟩ := hlast s hs hc
      rw [if_pos (by simpa using hc), h1, h3]
      simp only [List.mem_flatMap, List.mem_range]
      constructor
      · rintro ⟨j, hj, hm⟩
        rw [mem_packEntry h hs hc] at hm
        obtain ⟨p, hpI, hpO, rfl⟩ := hm
        refine ⟨j, p, ⟨hs, hc⟩, hj, hpI, hpO, ?_⟩
        rw [sendE_size]
      · rintro ⟨j, p, -, hj, hpI, hpO, rfl⟩
        refine ⟨j, hj, ?_⟩
        rw [mem_packEntry h hs hc]
        refine ⟨p, hpI, hpO, ?_⟩
        rw [sendE_size]
    · rw [if_neg (by simpa using hc)]
      constructor
      · simp
      · rintro ⟨j, p, ⟨-, hc'⟩, -⟩
        exact absurd hc' hc
  · -- unpacks
    intro r job hj m
    obtain ⟨hr, rfl⟩ := hjob hj
    unfold PointToPoint.job
    dsimp only
    rw [List.mem_append]
    have hrest : m ∈ (done r).flatMap (p2pUnpackOne direct stride nb (objP direct bin bout r)) ↔
        ∃ s j p, s < bin.length ∧ s ≠ r ∧ j < nb ∧ p ∈ boxAt bin s ∧ p ∈ boxAt bout r ∧
          m = (j * (boxAt bout r).count + (boxAt bout r).offset p, nb * (boxAt bin r).count +
            nb * seg (fun q => cnt bin bout q r) (origP direct bin bout r) s + j * cnt bin bout s r +
            msgOff (boxAt bin s) (boxAt bout r) p) := by
      rw [List.mem_flatMap]
      constructor
      · rintro ⟨i, hi, hm⟩
        rw [(hdone r hr).mem_iff, List.mem_range] at hi
        unfold requestsP objP at hi
        dsimp only at hi
        have hi' := List.getElem?_eq_getElem hi
        have hU := dropSelf_prefix _ _ hi'
        obtain ⟨q, hq, hne, hc, he⟩ := (mem_dropRecv h.len hr).1 (List.getElem_mem hi)
        rw [he] at hU
        unfold p2pUnpackOne objP at hm
        dsimp only at hm
        rw [hU, hloc r hr i _ hU] at hm
        simp only [List.mem_flatMap, List.mem_range] at hm
        obtain ⟨j, hj, hm⟩ := hm
        rw [add_comm ((j : Int) * _) (recvE direct bin bout r q).offset, mem_unpackEntry h hstr hr hq hc] at hm
        obtain ⟨p, hpI, hpO, rfl⟩ := hm
        refine ⟨q, j, p, hq, hne, hj, hpI, hpO, ?_⟩
        rw [recvE_size]
        rfl
      · rintro ⟨q, j, p, hq, hne, hj, hpI, hpO, rfl⟩
        have hc : 0 < cnt bin bout q r := msgCount_pos hpI hpO
        have hm := (mem_dropRecv (direct := direct) h.len hr).2 ⟨q, hq, hne, hc, rfl⟩
        obtain ⟨i, hi⟩ := List.mem_iff_getElem?.1 hm
        have hU := dropSelf_prefix _ _ hi
        have hl := hloc r hr i _ hU
        refine ⟨i, ?_, ?_⟩
        · rw [(hdone r hr).mem_iff, List.mem_range]
          exact (List.getElem?_eq_some_iff.1 hi).1
        · unfold p2pUnpackOne objP
          dsimp only
          rw [hU, hl]
          simp only [List.mem_flatMap, List.mem_range]
          refine ⟨j, hj, ?_⟩
          rw [add_comm ((j : Int) * _) (recvE direct bin bout r q).offset, mem_unpackEntry h hstr hr hq hc]
          refine ⟨p, hpI, hpO, ?_⟩
          rw [recvE_size]
          rfl
    rw [hrest]
    have hself : m ∈ (if (objP direct bin bout r).selfToSelf then
        match (objP direct bin bout r).packs.getLast?, (objP direct bin bout r).unpacks.getLast?,
          (objP direct bin bout r).recvLoc.getLast? with
        | some e, some u, some loc => (List.range nb).flatMap fun (j : Nat) =>
            unpackWith direct stride u.plan (nb * (objP direct bin bout r).inSize + nb * loc + j * e.size)
              (j * (objP direct bin bout r).outSize + u.offset)
        | _, _, _ => []
      else []) ↔ ∃ (j : Nat) (p : A3 Int), j < nb ∧ p ∈ boxAt bin r ∧ p ∈ boxAt bout r ∧
          m = (j * (boxAt bout r).count + (boxAt bout r).offset p, nb * (boxAt bin r).count +
            nb * seg (fun q => cnt bin bout q r) (origP direct bin bout r) r + j * cnt bin bout r r +
            msgOff (boxAt bin r) (boxAt bout r) p) := by
      unfold objP
      dsimp only
      by_cases hc : 0 < cnt bin bout r r
      · obtain ⟨h1, h2, h3⟩ := hlast r hr hc
        rw [if_pos (by simpa using hc), h1, h2, h3]
        simp only [List.mem_flatMap, List.mem_range]
        constructor
        · rintro ⟨j, hj, hm⟩
          rw [add_comm ((j : Int) * _) (recvE direct bin bout r r).offset, mem_unpackEntry h hstr hr hr hc] at hm
          obtain ⟨p, hpI, hpO, rfl⟩ := hm
          refine ⟨j, p, hj, hpI, hpO, ?_⟩
          rw [sendE_size]
        · rintro ⟨j, p, hj, hpI, hpO, rfl⟩
          refine ⟨j, hj, ?_⟩
          rw [add_comm ((j : Int) * _) (recvE direct bin bout r r).offset, mem_unpackEntry h hstr hr hr hc]
          refine ⟨p, hpI, hpO, ?_⟩
          rw [sendE_size]
      · rw [if_neg (by simpa using hc)]
        constructor
        · simp
        · rintro ⟨j, p, -, hpI, hpO, -⟩
          exact absurd (msgCount_pos hpI hpO) hc
    refine Iff.trans (or_congr hself Iff.rfl) ?_
    constructor
    · rintro (⟨j, p, hj, hpI, hpO, hm⟩ | ⟨s, j, p, hs, -, hj, hpI, hpO, hm⟩)
      · exact ⟨r, j, p, hr, hj, hpI, hpO, hm⟩
      · exact ⟨s, j, p, hs, hj, hpI, hpO, hm⟩
    · rintro ⟨s, j, p, hs, hjn, hpI, hpO, hm⟩
      by_cases hsr : s = r
      · subst hsr; exact .inl ⟨j, p, hjn, hpI, hpO, hm⟩
      · exact .inr ⟨s, j, p, hs, hsr, hjn, hpI, hpO, hm⟩

end Verif
