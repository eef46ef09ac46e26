import Verif.GpuCollRun
import Verif.GpuP2pRun
import Verif.ReshapeMain

/-!
# Reshapes on devices: the objects of the library
-/

namespace Verif
variable {α : Type} {bin bout : List Box} {w : Box}

theorem rankShaper_range {n : Nat} {f : Nat → Option Shaper} {r : Nat} (hr : r < n) : rankShaper ((List.range n).map f) r = f r := by
  unfold rankShaper
  rw [List.getElem?_map, List.getElem?_range hr]
  rfl

theorem rankShaper_beyond {n : Nat} {f : Nat → Option Shaper} {r : Nat} (hr : ¬ r < n) : rankShaper ((List.range n).map f) r = none := by
  unfold rankShaper
  rw [List.getElem?_eq_none (by simpa using hr)]
  rfl

/-! ## Collective objects -/

theorem collV (h : Redistribution bin bout w) {g : Nat → List Nat} (hg : GroupFacts bin bout g) (k : DeviceCall)
    (hstr : 0 < k.stride) :
    ∃ link S R e mid, CollOk bin.length k.nb (boxAt bin) (boxAt bout)
      (fun r => k.nb * wsOf (commShaper .alltoallv (directOf bin bout) bin bout g r)) link S R e mid
      (collOf k ((List.range bin.length).map (commShaper .alltoallv (directOf bin bout) bin bout g))) := by
  have hs := h.setup rfl
  have hgood := goodV hs hg hstr k.nb
  have hj : (collOf k ((List.range bin.length).map (commShaper .alltoallv (directOf bin bout) bin bout g))).jobs =
      (List.range bin.length).map (jobV (directOf bin bout) bin bout g k.stride k.nb) := by
    unfold collOf
    rw [List.map_map]
    apply List.map_congr_left
    intro r _
    simp only [Function.comp_apply]
    unfold commShaper jobV
    dsimp only
    cases objV (directOf bin bout) bin bout g r <;> rfl
  have hW : ∀ r, r < bin.length → k.nb * ((boxAt bin r).count + (boxAt bout r).count) =
      k.nb * wsOf (commShaper .alltoallv (directOf bin bout) bin bout g r) := by
    intro r hr
    unfold commShaper objV
    by_cases hgr : g r = []
    · obtain ⟨h1, h2⟩ := no_group h hg hr hgr
      rw [if_pos hgr, count_zero h1, count_zero h2]
      simp [wsOf]
    · rw [if_neg hgr]
      rfl
  have hact : ∀ r, r < bin.length → ((collOf k ((List.range bin.length).map
      (commShaper .alltoallv (directOf bin bout) bin bout g))).active r = true ↔ g r ≠ []) := by
    intro r hr
    unfold collOf
    dsimp only
    rw [rankShaper_range hr]
    unfold commShaper objV
    by_cases hgr : g r = [] <;> simp [hgr]
  have hst : ∀ r, r < bin.length → g r ≠ [] → (collOf k ((List.range bin.length).map
      (commShaper .alltoallv (directOf bin bout) bin bout g))).staging r =
      ⟨k.nb * (boxAt bin r).count, k.nb * (boxAt bin r).count, k.nb * (boxAt bout r).count⟩ := by
    intro r hr hgr
    unfold collOf
    dsimp only
    rw [rankShaper_range hr]
    unfold commShaper objV
    rw [if_neg hgr]
    rfl
  rw [← hj] at hgood
  refine ⟨_, _, _, _, _, hgood.congrW hW, fun r hr => hs.ordI hr, fun r hr => hs.ordO hr, hs.uniqIn, ?_, ?_, ?_, ?_, ?_⟩
  · rintro s r ⟨hs', hr⟩
    have hrn := hg.lt hs' hr
    rw [hact s hs', hact r hrn]
    have h1 : g s ≠ [] := List.ne_nil_of_mem hr
    exact ⟨h1, by rw [hg.same s r hs' hr]; exact h1⟩
  · intro r hr ha
    rw [hst r hr ((hact r hr).1 ha)]
  · intro r hr ha
    rw [hst r hr ((hact r hr).1 ha)]
  · intro r hr ha
    rw [hst r hr ((hact r hr).1 ha), ← hW r hr]
    dsimp only
    ring
  · intro r hr ha w hw
    have hgr : g r = [] := by
      by_contra hc
      rw [(hact r hr).2 hc] at ha
      exact absurd ha (by simp)
    unfold collOf
    dsimp only
    rw [rankShaper_range hr]
    unfold commShaper objV
    rw [if_pos hgr]
    exact ⟨le_rfl, le_rfl⟩

theorem collA (h : Redistribution bin bout w) {g : Nat → List Nat} (hg : GroupFacts bin bout g) (k : DeviceCall)
    (hstr : 0 < k.stride) :
    ∃ link S R e mid, CollOk bin.length k.nb (boxAt bin) (boxAt bout)
      (fun r => k.nb * wsOf (commShaper .alltoall (directOf bin bout) bin bout g r)) link S R e mid
      (collOf k ((List.range bin.length).map (commShaper .alltoall (directOf bin bout) bin bout g))) := by
  have hs := h.setup rfl
  have hgood := goodA hs hg hstr k.nb
  have hj : (collOf k ((List.range bin.length).map (commShaper .alltoall (directOf bin bout) bin bout g))).jobs =
      (List.range bin.length).map (jobA (directOf bin bout) bin bout g k.stride k.nb) := by
    unfold collOf
    rw [List.map_map]
    apply List.map_congr_left
    intro r _
    simp only [Function.comp_apply]
    unfold commShaper jobA
    dsimp only
    cases objA (directOf bin bout) bin bout g r <;> rfl
  have hW : ∀ r, r < bin.length → k.nb * (2 * entA bin bout g r * (g r).length) =
      k.nb * wsOf (commShaper .alltoall (directOf bin bout) bin bout g r) := by
    intro r hr
    unfold commShaper objA
    by_cases hgr : g r = []
    · rw [if_pos hgr, hgr]
      simp [wsOf]
    · rw [if_neg hgr]
      simp only [Option.map_some, wsOf, Shaper.sizeWorkspace, AllToAll.sizeWorkspace]
      rw [overlapA_send hs.len (fun q hq => hg.lt hr hq), List.length_map]
  have hact : ∀ r, r < bin.length → ((collOf k ((List.range bin.length).map
      (commShaper .alltoall (directOf bin bout) bin bout g))).active r = true ↔ g r ≠ []) := by
    intro r hr
    unfold collOf
    dsimp only
    rw [rankShaper_range hr]
    unfold commShaper objA
    by_cases hgr : g r = [] <;> simp [hgr]
  have hst : ∀ r, r < bin.length → g r ≠ [] → (collOf k ((List.range bin.length).map
      (commShaper .alltoall (directOf bin bout) bin bout g))).staging r =
      ⟨k.nb * entA bin bout g r * (g r).length, k.nb * entA bin bout g r * (g r).length,
        k.nb * entA bin bout g r * (g r).length⟩ := by
    intro r hr hgr
    unfold collOf
    dsimp only
    rw [rankShaper_range hr]
    unfold commShaper objA
    rw [if_neg hgr]
    simp only [Option.map_some, Shaper.staging]
    rw [overlapA_send hs.len (fun q hq => hg.lt hr hq), List.length_map]
  rw [← hj] at hgood
  refine ⟨_, _, _, _, _, hgood.congrW hW, fun r hr => hs.ordI hr, fun r hr => hs.ordO hr, hs.uniqIn, ?_, ?_, ?_, ?_, ?_⟩
  · rintro s r ⟨hs', hr⟩
    have hrn := hg.lt hs' hr
    rw [hact s hs', hact r hrn]
    have h1 : g s ≠ [] := List.ne_nil_of_mem hr
    exact ⟨h1, by rw [hg.same s r hs' hr]; exact h1⟩
  · intro r hr ha
    rw [hst r hr ((hact r hr).1 ha)]
  · intro r hr ha
    rw [hst r hr ((hact r hr).1 ha)]
  · intro r hr ha
    rw [hst r hr ((hact r hr).1 ha), ← hW r hr]
    dsimp only
    ring
  · intro r hr ha w hw
    have hgr : g r = [] := by
      by_contra hc
      rw [(hact r hr).2 hc] at ha
      exact absurd ha (by simp)
    unfold collOf
    dsimp only
    rw [rankShaper_range hr]
    unfold commShaper objA
    rw [if_pos hgr]
    exact ⟨le_rfl, le_rfl⟩

/-! ## Point-to-point objects -/

theorem p2pSends_get (nb : Nat) (f : Nat → Int) : ∀ (X : List Entry) (off : Int), (X.map Entry.proc).Nodup →
    (∀ e ∈ X, f e.proc = e.size) → ∀ (i : Nat) e, X[i]? = some e →
      (p2pSends nb X off)[i]? = some ⟨e.proc, off + nb * seg f (X.map Entry.proc) e.proc, nb * e.size⟩
  | [], _, _, _, i, e, h => by simp at h
  | a :: t, off, hn, hf, i, e, h => by
    rw [List.map_cons, List.nodup_cons] at hn
    unfold p2pSends
    cases i with
    | zero =>
      simp at h; subst h
      simp [seg]
    | succ i =>
      have h' : t[i]? = some e := by simpa using h
      have ih := p2pSends_get nb f t (off + nb * a.size) hn.2 (fun e he => hf e (by simp [he])) i e h'
      have hne : a.proc ≠ e.proc := fun hc => hn.1 (hc ▸ List.mem_map_of_mem (List.mem_of_getElem? h'))
      rw [List.getElem?_cons_succ, ih, List.map_cons, seg_cons, if_neg hne, hf a (by simp), mul_add, add_assoc]

theorem p2pAll (h : Redistribution bin bout w) (alg : Alg) (ha : alg = .p2p ∨ alg = .p2pPlined) (g : Nat → List Nat) (k : DeviceCall)
    (hstr : 0 < k.stride) (hdone : ArrivalOrder bin bout k.done) :
    ∃ jobs link own S R mid, P2pOk (boxAt bin) (boxAt bout)
      (fun r => k.nb * wsOf (commShaper alg (directOf bin bout) bin bout g r)) jobs link own S R (cnt bin bout) mid
      (p2pOf k (alg == .p2pPlined) ((List.range bin.length).map (commShaper alg (directOf bin bout) bin bout g))) := by
  have hs := h.setup rfl
  have hn : 0 < bin.length := List.length_pos_iff.2 h.ranks
  have hdone' : ∀ r, r < bin.length → (k.done r).Perm (List.range (requestsP (objP (directOf bin bout) bin bout r))) := by
    intro r hr
    rw [requestsP_card hs.len hr]
    exact hdone r hr
  have hgood := goodP hs hstr k.nb k.done hdone'
  have hcomm : ∀ r, commShaper alg (directOf bin bout) bin bout g r = some (.p2p (directOf bin bout) (objP (directOf bin bout) bin bout r)) := by
    intro r
    rcases ha with rfl | rfl <;> rfl
  generalize hc : p2pOf k (alg == .p2pPlined) ((List.range bin.length).map (commShaper alg (directOf bin bout) bin bout g)) = c
  have hcn : c.n = bin.length := by rw [← hc]; simp [p2pOf]
  have hcd : c.direct = directOf bin bout := by
    rw [← hc]
    simp only [p2pOf]
    rw [rankShaper_range hn, hcomm]
    rfl
  have hcs : c.stride = k.stride := by rw [← hc]; rfl
  have hcb : c.nb = k.nb := by rw [← hc]; rfl
  have hcdone : c.done = k.done := by rw [← hc]; rfl
  have hco : ∀ r, r < bin.length → c.objs r = objP (directOf bin bout) bin bout r := by
    intro r hr
    rw [← hc]
    simp only [p2pOf]
    rw [rankShaper_range hr, hcomm]
    rfl
  have hsend : ∀ r, r < bin.length → c.sends r = dropSelf (decide (0 < cnt bin bout r r)) (sendEntries bout r (boxAt bin r)) := by
    intro r hr
    unfold P2p.sends
    rw [hco r hr]; rfl
  have hrecv : ∀ r, r < bin.length → c.recvs r =
      dropSelf (decide (0 < cnt bin bout r r)) (recvEntries (directOf bin bout) bin r (boxAt bout r)) := by
    intro r hr
    unfold P2p.recvs
    rw [hco r hr]; rfl
  have hfS : ∀ s, s < bin.length → ∀ e ∈ dropSelf (decide (0 < cnt bin bout s s)) (sendEntries bout s (boxAt bin s)),
      cnt bin bout s e.proc = e.size := by
    intro s hs' e he
    obtain ⟨q, -, -, -, rfl⟩ := (mem_dropSend hs.len hs').1 he
    rw [sendE_size, sendE_proc]
  have hfR : ∀ r, r < bin.length → ∀ e ∈ recvEntries (directOf bin bout) bin r (boxAt bout r),
      (fun q => cnt bin bout q r) e.proc = e.size := by
    intro r hr e he
    obtain ⟨q, -, -, rfl⟩ := (mem_recvEntries hs.len hr).1 he
    rw [recvE_size, recvE_proc]
  have hloc : ∀ r, r < bin.length → ∀ (i : Nat) e, (recvEntries (directOf bin bout) bin r (boxAt bout r))[i]? = some e →
      (recvLocs ((recvEntries (directOf bin bout) bin r (boxAt bout r)).map Entry.size) 0)[i]? =
        some (seg (fun q => cnt bin bout q r) (origP (directOf bin bout) bin bout r) e.proc) := by
    intro r hr i e he
    have := recvLocs_get (fun q => cnt bin bout q r) _ 0 (recv_nodup hr) (hfR r hr) i e he
    rwa [zero_add] at this
  have hlast : ∀ r, r < bin.length → 0 < cnt bin bout r r →
      (sendEntries bout r (boxAt bin r)).getLast? = some (sendE bin bout r r) ∧
      (recvEntries (directOf bin bout) bin r (boxAt bout r)).getLast? = some (recvE (directOf bin bout) bin bout r r) ∧
      (recvLocs ((recvEntries (directOf bin bout) bin r (boxAt bout r)).map Entry.size) 0).getLast? =
        some (seg (fun q => cnt bin bout q r) (origP (directOf bin bout) bin bout r) r) := by
    intro r hr hc
    obtain ⟨lp, lu, h1, h2, -, -⟩ := split_self (direct := directOf bin bout) hs.len hr
    rw [if_pos hc] at h1 h2
    refine ⟨by rw [h1]; simp, by rw [h2]; simp, ?_⟩
    have hne : (recvEntries (directOf bin bout) bin r (boxAt bout r)).map Entry.size ≠ [] := by rw [h2]; simp
    rw [List.getLast?_eq_getElem?, recvLocs_length _ _ hne, List.length_map]
    rw [hloc r hr _ (recvE (directOf bin bout) bin bout r r) (by rw [h2]; simp)]
    rfl
  have hplan : ∀ s, s < bin.length → ∀ (i : Nat) (a : Entry), (c.sends s)[i]? = some a →
      ∃ q, q < bin.length ∧ q ≠ s ∧ 0 < cnt bin bout s q ∧ a = sendE bin bout s q := by
    intro s hs' i a ha'
    rw [hsend s hs'] at ha'
    exact (mem_dropSend hs.len hs').1 (List.mem_of_getElem? ha')
  have hplan' : ∀ r, r < bin.length → ∀ (i : Nat) (a : Entry), (c.recvs r)[i]? = some a →
      ∃ q, q < bin.length ∧ q ≠ r ∧ 0 < cnt bin bout q r ∧ a = recvE (directOf bin bout) bin bout r q := by
    intro r hr i a ha'
    rw [hrecv r hr] at ha'
    exact (mem_dropRecv hs.len hr).1 (List.mem_of_getElem? ha')
  refine ⟨(List.range bin.length).map fun r => (objP (directOf bin bout) bin bout r).job (directOf bin bout) k.stride k.nb (k.done r),
    fun s r => s < bin.length ∧ r < bin.length ∧ r ≠ s ∧ 0 < cnt bin bout s r,
    fun s => s < bin.length ∧ 0 < cnt bin bout s s,
    fun s r => k.nb * seg (fun q => cnt bin bout s q) (destP bin bout s) r,
    fun r s => k.nb * (boxAt bin r).count + k.nb * seg (fun q => cnt bin bout q r) (origP (directOf bin bout) bin bout r) s,
    fun r => k.nb * (boxAt bin r).count,
    { good := ?_, ordI := ?_, ordO := ?_, uniq := ?_, other := ?_, base := ?_, self := ?_, sendAt := ?_, sendHas := ?_,
      sendNodup := ?_, recvAt := ?_, recvHas := ?_, recvNodup := ?_, done := ?_, selfPack := ?_, selfUnpack := ?_ }⟩
  · rw [hcn, hcb]
    refine hgood.congrW ?_
    intro r _
    rw [hcomm]
    rfl
  · rw [hcn]; exact fun r hr => hs.ordI hr
  · rw [hcn]; exact fun r hr => hs.ordO hr
  · rw [hcn]; exact hs.uniqIn
  · rintro s r ⟨-, -, hne, -⟩
    exact fun he => hne he.symm
  · rw [hcn, hcb]
    intro r hr
    rw [hco r hr]; rfl
  · rw [hcn]
    intro r hr
    rw [hco r hr]
    simp [objP, hr]
  · rw [hcn, hcb]
    intro s hs' i a ha'
    obtain ⟨q, hq, hne, hc, rfl⟩ := hplan s hs' i a ha'
    refine ⟨⟨hs', hq, hne, hc⟩, sendE_size .., ?_, ?_⟩
    · rw [hsend s hs'] at ha' ⊢
      rw [p2pSends_get k.nb (fun q => cnt bin bout s q) _ 0 (dropSelf_nodup (send_nodup hs.len hs')) (hfS s hs') i _ ha', zero_add,
        sendE_size, sendE_proc]
      rfl
    · intro j X m
      rw [hco s hs', add_comm ((j : Int) * _)]
      exact mem_packEntry hs hs' hc ..
  · rintro s r ⟨hs', hr, hne, hc⟩
    obtain ⟨i, hi⟩ := List.mem_iff_getElem?.1 ((mem_dropSend hs.len hs').2 ⟨r, hr, hne, hc, rfl⟩)
    exact ⟨i, _, by rw [hsend s hs']; exact hi, sendE_proc ..⟩
  · rw [hcn]
    intro s hs'
    rw [hsend s hs']
    exact dropSelf_nodup (send_nodup hs.len hs')
  · rw [hcn, hcb, hcd, hcs]
    intro r hr i b hb
    obtain ⟨q, hq, hne, hc, rfl⟩ := hplan' r hr i b hb
    have hU : (recvEntries (directOf bin bout) bin r (boxAt bout r))[i]? = some (recvE (directOf bin bout) bin bout r q) := by
      rw [hrecv r hr] at hb
      exact dropSelf_prefix _ _ hb
    refine ⟨⟨hq, hr, fun he => hne he.symm, hc⟩, recvE_size .., ⟨_, ?_, rfl⟩, ?_⟩
    · rw [hco r hr]
      exact hloc r hr i _ hU
    · intro m
      rw [hco r hr]
      unfold p2pUnpackOne objP
      dsimp only
      rw [hU, hloc r hr i _ hU]
      simp only [List.mem_flatMap, List.mem_range]
      constructor
      · rintro ⟨j, hj, hm⟩
        rw [add_comm ((j : Int) * _) (recvE (directOf bin bout) bin bout r q).offset, mem_unpackEntry hs hstr hr hq hc] at hm
        obtain ⟨p, hpI, hpO, rfl⟩ := hm
        refine ⟨j, p, hj, hpI, hpO, ?_⟩
        rw [recvE_size]
        rfl
      · rintro ⟨j, p, hj, hpI, hpO, rfl⟩
        refine ⟨j, hj, ?_⟩
        rw [add_comm ((j : Int) * _) (recvE (directOf bin bout) bin bout r q).offset, mem_unpackEntry hs hstr hr hq hc]
        refine ⟨p, hpI, hpO, ?_⟩
        rw [recvE_size]
        rfl
  · rintro s r ⟨hs', hr, hne, hc⟩
    obtain ⟨i, hi⟩ := List.mem_iff_getElem?.1 ((mem_dropRecv (direct := directOf bin bout) hs.len hr).2
      ⟨s, hs', fun he => hne he.symm, hc, rfl⟩)
    exact ⟨i, _, by rw [hrecv r hr]; exact hi, recvE_proc ..⟩
  · rw [hcn]
    intro r hr
    rw [hrecv r hr]
    exact dropSelf_nodup (recv_nodup hr)
  · rw [hcn, hcdone]
    intro r hr
    have := hdone' r hr
    rw [hrecv r hr]
    exact this
  · rw [hcn, hcb, hcd, hcs]
    intro r hr m
    rw [hco r hr]
    have := hgood.selfPacks r ((objP (directOf bin bout) bin bout r).job (directOf bin bout) k.stride k.nb (k.done r))
      (by rw [List.getElem?_map, List.getElem?_range hr]; rfl) m
    exact this
  · rw [hcn, hcb, hcd, hcs]
    intro r hr m
    rw [hco r hr]
    unfold PointToPoint.job objP
    dsimp only
    rw [List.flatMap_nil, List.append_nil]
    by_cases hc : 0 < cnt bin bout r r
    · obtain ⟨h1, h2, h3⟩ := hlast r hr hc
      rw [if_pos (by simpa using hc), h1, h2, h3]
      simp only [List.mem_flatMap, List.mem_range]
      constructor
      · rintro ⟨j, hj, hm⟩
        rw [add_comm ((j : Int) * _) (recvE (directOf bin bout) bin bout r r).offset, mem_unpackEntry hs hstr hr hr hc] at hm
        obtain ⟨p, hpI, hpO, rfl⟩ := hm
        refine ⟨j, p, ⟨hr, hc⟩, hj, hpI, hpO, ?_⟩
        rw [sendE_size]
      · rintro ⟨j, p, -, hj, hpI, hpO, rfl⟩
        refine ⟨j, hj, ?_⟩
        rw [add_comm ((j : Int) * _) (recvE (directOf bin bout) bin bout r r).offset, mem_unpackEntry hs hstr hr hr hc]
        refine ⟨p, hpI, hpO, ?_⟩
        rw [sendE_size]
    · rw [if_neg (by simpa using hc)]
      constructor
      · simp
      · rintro ⟨j, p, ⟨-, hc'⟩, -⟩
        exact absurd hc' hc

end Verif
