import Verif.MoveLemmas

/-!
# A reshape with a sound message layout is right

`Good` collects what the three communication algorithms have to satisfy: where the message from rank `s` to rank `r`
lies in the two workspaces (`S s r`, `R r s`), the stride between the entries of a batch (`e s r`), which pairs use MPI
(`link`) and which ranks copy their own part (`own`).
-/

namespace Verif
variable {α : Type}

theorem mapRes_ok {β γ : Type} {f : Nat → β → Res γ} {P : Nat → β → γ → Prop} :
    ∀ (l : List β) (k : Nat), (∀ (i : Nat) b, l[i]? = some b → ∃ c, f (k + i) b = .ok c ∧ P (k + i) b c) →
      ∃ rs, mapRes f k l = .ok rs ∧ rs.length = l.length ∧
        ∀ (i : Nat) b, l[i]? = some b → ∃ c, rs[i]? = some c ∧ P (k + i) b c
  | [], k, _ => ⟨[], rfl, rfl, by simp⟩
  | b :: t, k, h => by
    obtain ⟨c, hc, hp⟩ := h 0 b (by simp)
    obtain ⟨rs, hrs, hl, hr⟩ := mapRes_ok (P := P) t (k + 1) (fun i b' hb => by
      obtain ⟨c', h1, h2⟩ := h (i + 1) b' (by simpa using hb)
      exact ⟨c', by rw [show k + 1 + i = k + (i + 1) by omega]; exact h1,
        by rw [show k + 1 + i = k + (i + 1) by omega]; exact h2⟩)
    refine ⟨c :: rs, ?_, by simp [hl], ?_⟩
    · simp only [Nat.add_zero] at hc
      simp only [mapRes, hc, hrs]
    · intro i b' hb
      cases i with
      | zero => simp at hb; subst hb; exact ⟨c, by simp, hp⟩
      | succ i =>
        obtain ⟨c', h1, h2⟩ := hr i b' (by simpa using hb)
        exact ⟨c', by simpa using h1, by rw [show k + (i + 1) = k + 1 + i by omega]; exact h2⟩

/-- Number of entries that rank `s` has for rank `r`. -/
def msgCount (I O : Nat → Box) (s r : Nat) : Int := ((I s).collide (O r)).count

/-- A sound layout of the messages. -/
structure Good (n nb : Nat) (I O : Nat → Box) (W : Nat → Int) (jobs : List Job) (link : Nat → Nat → Prop)
    (own : Nat → Prop) (S R e : Nat → Nat → Int) (mid : Nat → Int) : Prop where
  len : jobs.length = n
  /-- every pair with common indexes communicates -/
  cover : ∀ s r, s < n → r < n → 0 < msgCount I O s r → link s r ∨ s = r ∧ own s
  notBoth : ∀ s, link s s → ¬ own s
  linkLt : ∀ s r, link s r → s < n ∧ r < n
  selfLt : ∀ s, own s → s < n
  stride : ∀ s r, link s r ∨ s = r ∧ own s → msgCount I O s r ≤ e s r
  /-- layout of the workspaces: sends below `mid`, receives above -/
  sendIn : ∀ s r, link s r → 0 ≤ S s r ∧ S s r + nb * e s r ≤ mid s
  sendApart : ∀ s r r', link s r → link s r' → r ≠ r' → S s r + nb * e s r ≤ S s r' ∨ S s r' + nb * e s r' ≤ S s r
  recvIn : ∀ s r, link s r ∨ s = r ∧ own s → mid r ≤ R r s ∧ R r s + nb * e s r ≤ W r
  recvApart : ∀ s s' r, link s r ∨ s = r ∧ own s → link s' r ∨ s' = r ∧ own s' → s ≠ s' →
    R r s + nb * e s r ≤ R r s' ∨ R r s' + nb * e s' r ≤ R r s
  midIn : ∀ s, s < n → 0 ≤ mid s ∧ mid s ≤ W s
  /-- the parts of the jobs -/
  packs : ∀ (s : Nat) (job : Job), jobs[s]? = some job → ∀ m, m ∈ job.packs ↔ ∃ (r j : Nat) (p : A3 Int), link s r ∧ j < nb ∧ p ∈ I s ∧
    p ∈ O r ∧ m = (S s r + j * e s r + msgOff (I s) (O r) p, j * (I s).count + (I s).offset p)
  sends : ∀ (s : Nat) (job : Job), jobs[s]? = some job → ∀ m, m ∈ job.sends ↔ ∃ r, link s r ∧ m = ⟨r, S s r, nb * e s r⟩
  sendsNodup : ∀ (s : Nat) (job : Job), jobs[s]? = some job → (job.sends.map Msg.peer).Nodup
  recvs : ∀ (r : Nat) (job : Job), jobs[r]? = some job → ∀ m, m ∈ job.recvs ↔ ∃ s, link s r ∧ m = ⟨s, R r s, nb * e s r⟩
  recvsNodup : ∀ (r : Nat) (job : Job), jobs[r]? = some job → (job.recvs.map Msg.peer).Nodup
  groups : ∀ (r : Nat) (job : Job), jobs[r]? = some job → ∀ q ∈ job.group, ∃ job', jobs[q]? = some job' ∧ job'.group = job.group
  selfPacks : ∀ (s : Nat) (job : Job), jobs[s]? = some job → ∀ m, m ∈ job.selfPacks ↔ ∃ (j : Nat) (p : A3 Int), own s ∧ j < nb ∧ p ∈ I s ∧
    p ∈ O s ∧ m = (R s s + j * e s s + msgOff (I s) (O s) p, j * (I s).count + (I s).offset p)
  unpacks : ∀ (r : Nat) (job : Job), jobs[r]? = some job → ∀ m, m ∈ job.unpacks ↔ ∃ (s j : Nat) (p : A3 Int), s < n ∧ j < nb ∧ p ∈ I s ∧
    p ∈ O r ∧ m = (j * (O r).count + (O r).offset p, R r s + j * e s r + msgOff (I s) (O r) p)

theorem filter_peer_singleton {l : List Msg} (hn : (l.map Msg.peer).Nodup) {m : Msg} (hm : m ∈ l) :
    l.filter (fun s => decide (s.peer = m.peer)) = [m] := by
  induction l with
  | nil => simp at hm
  | cons a t ih =>
    simp only [List.map_cons, List.nodup_cons] at hn
    rcases List.mem_cons.1 hm with rfl | hm
    · rw [List.filter_cons_of_pos (by simp)]
      congr 1
      rw [List.filter_eq_nil_iff]
      intro x hx
      simp only [decide_eq_true_eq]
      intro h
      exact hn.1 (h ▸ List.mem_map_of_mem hx)
    · rw [List.filter_cons_of_neg, ih hn.2 hm]
      simp only [decide_eq_true_eq]
      intro h
      exact hn.1 (h ▸ List.mem_map_of_mem hm)

variable {n nb : Nat} {I O : Nat → Box} {W : Nat → Int} {jobs : List Job} {link : Nat → Nat → Prop}
  {own : Nat → Prop} {S R e : Nat → Nat → Int} {mid : Nat → Int}

theorem Good.job_exists (g : Good n nb I O W jobs link own S R e mid) {s : Nat} (h : s < n) : ∃ job, jobs[s]? = some job :=
  ⟨jobs[s]'(by rw [g.len]; exact h), List.getElem?_eq_getElem (by rw [g.len]; exact h)⟩

theorem Good.matchSend (g : Good n nb I O W jobs link own S R e mid) {s r : Nat} (h : link s r) :
    matchSend jobs r ⟨s, R r s, nb * e s r⟩ = some ⟨r, S s r, nb * e s r⟩ := by
  obtain ⟨job, hj⟩ := g.job_exists (g.linkLt s r h).1
  have hm : (⟨r, S s r, nb * e s r⟩ : Msg) ∈ job.sends := (g.sends s job hj _).2 ⟨r, h, rfl⟩
  have := filter_peer_singleton (g.sendsNodup s job hj) hm
  simp only [Verif.matchSend, hj, Option.map_some]
  dsimp only at this
  rw [this]
  simp

theorem Good.deliverable (g : Good n nb I O W jobs link own S R e mid) {r : Nat} {job : Job} (hj : jobs[r]? = some job) :
    deliverable jobs r job = true := by
  simp only [Verif.deliverable, Bool.and_eq_true, List.all_eq_true]
  refine ⟨⟨?_, ?_⟩, ?_⟩
  · intro m hm
    obtain ⟨s, hl, rfl⟩ := (g.recvs r job hj m).1 hm
    rw [g.matchSend hl]; rfl
  · intro m hm
    obtain ⟨q, hl, rfl⟩ := (g.sends r job hj m).1 hm
    obtain ⟨job', hj'⟩ := g.job_exists (g.linkLt r q hl).2
    have hm' : (⟨r, R q r, nb * e r q⟩ : Msg) ∈ job'.recvs := (g.recvs q job' hj' _).2 ⟨r, hl, rfl⟩
    have := filter_peer_singleton (g.recvsNodup q job' hj') hm'
    dsimp only at this ⊢
    rw [hj']
    simp only [this]; rfl
  · intro q hq
    obtain ⟨job', hj', hg⟩ := g.groups r job hj q hq
    rw [hj']
    simp [hg]

/-- Two entries of one message region are the same entry. -/
theorem entry_inj {nb : Nat} {e c : Int} {j j' : Nat} {x x' A : Int} (hc : c ≤ e) (hx : 0 ≤ x ∧ x < c)
    (hx' : 0 ≤ x' ∧ x' < c) (h : A + j * e + x = A + j' * e + x') (_ : j < nb) : j = j' ∧ x = x' := by
  have := digits_inj (n := e) (a := j) (b := x) (c := j') (d := x') (by omega) (by omega) (by omega)
  omega

theorem entry_range {nb : Nat} {e c : Int} {j : Nat} {x : Int} (hc : c ≤ e) (hx : 0 ≤ x ∧ x < c) (hj : j < nb) :
    0 ≤ j * e + x ∧ j * e + x < nb * e := by
  exact digits_lt (a := j) (m := nb) (n := e) (by omega) (by omega)

theorem msgCount_pos {I O : Nat → Box} {s r : Nat} {p : A3 Int} (h1 : p ∈ I s) (h2 : p ∈ O r) : 0 < msgCount I O s r :=
  Box.count_pos_iff.2 (Box.empty_false_of_mem (Box.mem_collide.2 ⟨h1, h2⟩))

theorem mul_count_le {nb : Nat} {j : Nat} {c x : Int} (hj : j < nb) (hx : 0 ≤ x ∧ x < c) : 0 ≤ j * c + x ∧ j * c + x < nb * c :=
  entry_range le_rfl hx hj

/-- The main theorem on reshapes. -/
theorem Good.run (g : Good n nb I O W jobs link own S R e mid) (hIo : ∀ r, r < n → IsOrder (I r).order)
    (hOo : ∀ r, r < n → IsOrder (O r).order)
    (hcov : ∀ r, r < n → ∀ p : A3 Int, p ∈ O r → ∃ s, s < n ∧ p ∈ I s)
    (huniq : ∀ s s', s < n → s' < n → ∀ p : A3 Int, p ∈ I s → p ∈ I s' → s = s')
    (mems : List (Arrays α)) (hlen : mems.length = n) (G : Nat → A3 Int → α)
    (hsrc : ∀ (r : Nat) m, mems[r]? = some m → HoldsBatch (I r) nb m.src G)
    (hdst : ∀ (r : Nat) m, mems[r]? = some m → nb * (O r).count ≤ m.dst.length)
    (hws : ∀ (r : Nat) m, mems[r]? = some m → W r ≤ m.ws.length) :
    ∃ dsts, runJobs jobs mems = .ok dsts ∧ dsts.length = n ∧
      ∀ (r : Nat) m, mems[r]? = some m → ∃ d, dsts[r]? = some d ∧ d.length = m.dst.length ∧ HoldsBatch (O r) nb d G ∧
        ∀ a, nb * (O r).count ≤ a → rd d a = rd m.dst a := by
  have hIc : ∀ r, ((I r).points.card : Int) = (I r).count := fun r => (Box.count_eq_card _).symm
  have hOc : ∀ r, ((O r).points.card : Int) = (O r).count := fun r => (Box.count_eq_card _).symm
  have hzip : ∀ (i : Nat) x, (jobs.zip mems)[i]? = some x ↔ jobs[i]? = some x.1 ∧ mems[i]? = some x.2 := by
    intro i x; rw [List.getElem?_zip_eq_some]
  have hlt : ∀ {i : Nat} {m}, mems[i]? = some m → i < n := by
    intro i m h; rw [← hlen]; exact (List.getElem?_eq_some_iff.1 h).1
  -- source values
  have hread : ∀ {s : Nat} {m}, mems[s]? = some m → ∀ {j : Nat} {p : A3 Int}, j < nb → p ∈ I s →
      rd m.src (j * (I s).count + (I s).offset p) = some (G j p) := by
    intro s m hm j p hj hp
    have := hsrc s m hm j hj p hp
    rwa [hIc] at this
  -- packing
  obtain ⟨packed, hpk, hpl, hpp⟩ := mapRes_ok
    (f := fun _ (x : Job × Arrays α) => copyMoves x.1.packs x.2.src x.2.ws)
    (P := fun s x ws => ws.length = x.2.ws.length ∧ ∀ (r j : Nat) (p : A3 Int), link s r → j < nb → p ∈ I s → p ∈ O r →
      rd ws (S s r + j * e s r + msgOff (I s) (O r) p) = some (G j p)) (jobs.zip mems) 0 (by
    intro s x hx
    obtain ⟨hj, hm⟩ := (hzip s x).1 hx
    have hs := hlt hm
    have hWs := hws s _ hm
    have hmid := g.midIn s hs
    simp only [Nat.zero_add]
    obtain ⟨ws, h1, h2, h3, -⟩ := copyMoves_ok (moves := x.1.packs) (src := x.2.src) (dst := x.2.ws) (by
      intro m hm'
      obtain ⟨r, j, p, hl, hjb, hpI, hpO, rfl⟩ := (g.packs s _ hj m).1 hm'
      have hr := msgOff_range (hIo s hs) hpI hpO
      have h4 := g.stride s r (.inl hl)
      have h5 := g.sendIn s r hl
      have h6 := entry_range (nb := nb) h4 hr hjb
      refine ⟨rd_some_iff.1 ⟨_, hread hm hjb hpI⟩, ?_⟩
      dsimp only; omega) (by
      intro m hm' u hu heq
      obtain ⟨r, j, p, hl, hjb, hpI, hpO, rfl⟩ := (g.packs s _ hj m).1 hm'
      obtain ⟨r', j', p', hl', hjb', hpI', hpO', rfl⟩ := (g.packs s _ hj u).1 hu
      have hr := msgOff_range (hIo s hs) hpI hpO
      have hr' := msgOff_range (hIo s hs) hpI' hpO'
      have h4 := g.stride s r (.inl hl)
      have h4' := g.stride s r' (.inl hl')
      have h6 := entry_range (nb := nb) h4 hr hjb
      have h6' := entry_range (nb := nb) h4' hr' hjb'
      dsimp only at heq ⊢
      by_cases hrr : r = r'
      · subst hrr
        obtain ⟨hjj, hoff⟩ := entry_inj h4 hr hr' heq hjb
        have := msgOff_inj (hIo s hs) hpI hpO hpI' hpO' hoff
        rw [hjj, this]
      · have := g.sendApart s r r' hl hl' hrr
        omega)
    refine ⟨ws, h1, h2, ?_⟩
    intro r j p hl hjb hpI hpO
    have := h3 _ ((g.packs s _ hj _).2 ⟨r, j, p, hl, hjb, hpI, hpO, rfl⟩)
    rw [this]
    exact hread hm hjb hpI)
  simp only [Nat.zero_add] at hpp
  have hjl : (jobs.zip mems).length = n := by simp [g.len, hlen]
  -- delivery
  have hdel : (jobs.zipIdx.all fun x => Verif.deliverable jobs x.2 x.1) = true := by
    rw [List.all_eq_true]
    rintro ⟨job, i⟩ hx
    rw [List.mem_zipIdx_iff_getElem?] at hx
    exact g.deliverable hx
  have hpkd : ∀ {s : Nat}, s < n → ∃ job m ws, jobs[s]? = some job ∧ mems[s]? = some m ∧ packed[s]? = some ws ∧
      ws.length = m.ws.length ∧ ∀ (r j : Nat) (p : A3 Int), link s r → j < nb → p ∈ I s → p ∈ O r →
      rd ws (S s r + j * e s r + msgOff (I s) (O r) p) = some (G j p) := by
    intro s hs
    obtain ⟨job, hj⟩ := g.job_exists hs
    have hm : mems[s]? = some (mems[s]'(by omega)) := List.getElem?_eq_getElem _
    obtain ⟨ws, h1, h2⟩ := hpp s (job, _) ((hzip s _).2 ⟨hj, hm⟩)
    exact ⟨job, _, ws, hj, hm, h1, h2.1, h2.2⟩
  obtain ⟨received, hrc, hrl, hrp⟩ := mapRes_ok
    (f := fun i (x : Job × List α) => writeAll (deliveries jobs packed i x.1) x.2)
    (P := fun r x ws => ws.length = x.2.length ∧ ∀ (s j : Nat) (p : A3 Int), link s r → j < nb → p ∈ I s → p ∈ O r →
      rd ws (R r s + j * e s r + msgOff (I s) (O r) p) = some (G j p)) (jobs.zip packed) 0 (by
    intro r x hx
    obtain ⟨hj, hp⟩ := List.getElem?_zip_eq_some.1 hx
    simp only [Nat.zero_add]
    have hr : r < n := by rw [← g.len]; exact (List.getElem?_eq_some_iff.1 hj).1
    obtain ⟨job, m, ws, hj', hm, hws', hwl, -⟩ := hpkd hr
    rw [hp] at hws'; cases hws'
    have hWr := hws r m hm
    have hmid := g.midIn r hr
    have hmem : ∀ w, w ∈ deliveries jobs packed r x.1 ↔ ∃ (s : Nat) (t : Int) (ws : List α), link s r ∧ packed[s]? = some ws ∧
        (0 ≤ t ∧ t < nb * e s r) ∧ w = (R r s + t, rd ws (S s r + t)) := by
      intro w
      simp only [deliveries, List.mem_flatMap]
      constructor
      · rintro ⟨msg, hmsg, hw⟩
        obtain ⟨s, hl, rfl⟩ := (g.recvs r _ hj msg).1 hmsg
        rw [g.matchSend hl] at hw
        simp only [List.mem_map, mem_loop] at hw
        obtain ⟨t, ht, rfl⟩ := hw
        obtain ⟨-, -, ws, -, -, hws, -, -⟩ := hpkd (g.linkLt s r hl).1
        exact ⟨s, t, ws, hl, hws, ht, by rw [hws]; rfl⟩
      · rintro ⟨s, t, ws, hl, hws, ht, rfl⟩
        refine ⟨_, (g.recvs r _ hj _).2 ⟨s, hl, rfl⟩, ?_⟩
        rw [g.matchSend hl]
        simp only [List.mem_map, mem_loop]
        exact ⟨t, ht, by rw [hws]; rfl⟩
    obtain ⟨ws', h1, h2, h3, -⟩ := writeAll_ok (deliveries jobs packed r x.1) x.2 (by
      intro w hw
      obtain ⟨s, t, ws, hl, hws2, ht, rfl⟩ := (hmem w).1 hw
      have hs := (g.linkLt s r hl).1
      obtain ⟨_, ms, ws2, _, hms, hws3, hl3, -⟩ := hpkd hs
      rw [hws2] at hws3; cases hws3
      have h5 := g.sendIn s r hl
      have h6 := g.recvIn s r (.inl hl)
      have h7 := g.midIn s hs
      have h8 := hws s ms hms
      refine ⟨Option.isSome_iff_exists.2 (rd_some_iff.2 ?_), ?_⟩
      · omega
      · dsimp only; omega) (by
      intro w hw u hu heq
      obtain ⟨s, t, ws, hl, hws2, ht, rfl⟩ := (hmem w).1 hw
      obtain ⟨s', t', ws', hl', hws2', ht', rfl⟩ := (hmem u).1 hu
      dsimp only at heq ⊢
      by_cases hss : s = s'
      · subst hss
        rw [hws2] at hws2'; cases hws2'
        have : t = t' := by omega
        rw [this]
      · have := g.recvApart s s' r (.inl hl) (.inl hl') hss
        omega)
    refine ⟨ws', h1, h2, ?_⟩
    intro s j p hl hjb hpI hpO
    have hs := (g.linkLt s r hl).1
    obtain ⟨_, ms, ws2, _, hms, hws3, hl3, hval⟩ := hpkd hs
    have hro := msgOff_range (hIo s hs) hpI hpO
    have h4 := g.stride s r (.inl hl)
    have h6 := entry_range (nb := nb) h4 hro hjb
    have := h3 _ ((hmem _).2 ⟨s, j * e s r + msgOff (I s) (O r) p, ws2, hl, hws3, h6, rfl⟩)
    dsimp only at this
    rw [← add_assoc, ← add_assoc] at this
    rw [this]
    exact hval r j p hl hjb hpI hpO)
  simp only [Nat.zero_add] at hrp
  have hrcd : ∀ {s : Nat}, s < n → ∃ job m ws, jobs[s]? = some job ∧ mems[s]? = some m ∧ received[s]? = some ws ∧
      ws.length = m.ws.length ∧ ∀ (q j : Nat) (p : A3 Int), link q s → j < nb → p ∈ I q → p ∈ O s →
      rd ws (R s q + j * e q s + msgOff (I q) (O s) p) = some (G j p) := by
    intro s hs
    obtain ⟨job, m, ws, hj, hm, hw, hwl, -⟩ := hpkd hs
    obtain ⟨ws', h1, h2, h3⟩ := hrp s (job, ws) (List.getElem?_zip_eq_some.2 ⟨hj, hw⟩)
    exact ⟨job, m, ws', hj, hm, h1, h2.trans hwl, h3⟩
  -- own part
  obtain ⟨wss, hsf, hsl, hsp⟩ := mapRes_ok
    (f := fun _ (x : (Job × Arrays α) × List α) => copyMoves x.1.1.selfPacks x.1.2.src x.2)
    (P := fun r x ws => ws.length = x.1.2.ws.length ∧ ∀ (s j : Nat) (p : A3 Int), link s r ∨ s = r ∧ own s → j < nb →
      p ∈ I s → p ∈ O r → rd ws (R r s + j * e s r + msgOff (I s) (O r) p) = some (G j p))
    ((jobs.zip mems).zip received) 0 (by
    rintro r ⟨⟨job, m⟩, ws⟩ hx
    obtain ⟨h1, hw⟩ := List.getElem?_zip_eq_some.1 hx
    obtain ⟨hj, hm⟩ := (hzip r _).1 h1
    dsimp only at hj hm hw ⊢
    simp only [Nat.zero_add]
    have hr := hlt hm
    obtain ⟨_, _, _, hj', hm', hw', hwl, hval⟩ := hrcd hr
    rw [hj] at hj'; rw [hm] at hm'; rw [hw] at hw'; cases hj'; cases hm'; cases hw'
    have hWr := hws r m hm
    have hmid := g.midIn r hr
    obtain ⟨ws', g1, g2, g3, g4⟩ := copyMoves_ok (moves := job.selfPacks) (src := m.src) (dst := ws) (by
      intro mv hmv
      obtain ⟨j, p, hsf, hjb, hpI, hpO, rfl⟩ := (g.selfPacks r job hj mv).1 hmv
      have hro := msgOff_range (hIo r hr) hpI hpO
      have h4 := g.stride r r (.inr ⟨rfl, hsf⟩)
      have h5 := g.recvIn r r (.inr ⟨rfl, hsf⟩)
      have h6 := entry_range (nb := nb) h4 hro hjb
      refine ⟨rd_some_iff.1 ⟨_, hread hm hjb hpI⟩, ?_⟩
      dsimp only; omega) (by
      intro mv hmv u hu heq
      obtain ⟨j, p, hsf, hjb, hpI, hpO, rfl⟩ := (g.selfPacks r job hj mv).1 hmv
      obtain ⟨j', p', hsf', hjb', hpI', hpO', rfl⟩ := (g.selfPacks r job hj u).1 hu
      have hro := msgOff_range (hIo r hr) hpI hpO
      have hro' := msgOff_range (hIo r hr) hpI' hpO'
      have h4 := g.stride r r (.inr ⟨rfl, hsf⟩)
      dsimp only at heq ⊢
      obtain ⟨hjj, hoff⟩ := entry_inj h4 hro hro' heq hjb
      have := msgOff_inj (hIo r hr) hpI hpO hpI' hpO' hoff
      rw [hjj, this])
    refine ⟨ws', g1, g2.trans hwl, ?_⟩
    intro s j p hc hjb hpI hpO
    rcases hc with hl | ⟨rfl, hsf⟩
    · have hs := (g.linkLt s r hl).1
      have hro := msgOff_range (hIo s hs) hpI hpO
      have h6 := entry_range (nb := nb) (g.stride s r (.inl hl)) hro hjb
      rw [g4, hval s j p hl hjb hpI hpO]
      intro mv hmv heq
      obtain ⟨j', p', hsf, hjb', hpI', hpO', rfl⟩ := (g.selfPacks r job hj mv).1 hmv
      have hro' := msgOff_range (hIo r hr) hpI' hpO'
      have h6' := entry_range (nb := nb) (g.stride r r (.inr ⟨rfl, hsf⟩)) hro' hjb'
      dsimp only at heq
      have hne : s ≠ r := by rintro rfl; exact g.notBoth s hl hsf
      have := g.recvApart s r r (.inl hl) (.inr ⟨rfl, hsf⟩) hne
      omega
    · rw [g3 _ ((g.selfPacks s job hj _).2 ⟨j, p, hsf, hjb, hpI, hpO, rfl⟩)]
      exact hread hm hjb hpI)
  simp only [Nat.zero_add] at hsp
  -- unpacking
  obtain ⟨dsts, hun, hul, hup⟩ := mapRes_ok
    (f := fun _ (x : (Job × Arrays α) × List α) => copyMoves x.1.1.unpacks x.2 x.1.2.dst)
    (P := fun r x d => d.length = x.1.2.dst.length ∧ HoldsBatch (O r) nb d G ∧
        ∀ a, nb * (O r).count ≤ a → rd d a = rd x.1.2.dst a)
    ((jobs.zip mems).zip wss) 0 (by
    rintro r ⟨⟨job, m⟩, ws⟩ hx
    obtain ⟨h1, hw⟩ := List.getElem?_zip_eq_some.1 hx
    obtain ⟨hj, hm⟩ := (hzip r _).1 h1
    dsimp only at hj hm hw ⊢
    simp only [Nat.zero_add]
    have hr := hlt hm
    obtain ⟨_, _, rws, _, _, hrw, -, -⟩ := hrcd hr
    obtain ⟨ws2, hw2, hwl, hval⟩ := hsp r ((job, m), rws) (List.getElem?_zip_eq_some.2 ⟨h1, hrw⟩)
    rw [hw] at hw2; cases hw2
    have hWr := hws r m hm
    have hmid := g.midIn r hr
    have hD := hdst r m hm
    dsimp only at hwl
    obtain ⟨d, g1, g2, g3, g4⟩ := copyMoves_ok (moves := job.unpacks) (src := ws) (dst := m.dst) (by
      intro mv hmv
      obtain ⟨s, j, p, hs, hjb, hpI, hpO, rfl⟩ := (g.unpacks r job hj mv).1 hmv
      have hch := g.cover s r hs hr (msgCount_pos hpI hpO)
      refine ⟨rd_some_iff.1 ⟨_, hval s j p hch hjb hpI hpO⟩, ?_⟩
      have := mul_count_le hjb (Box.offset_range (hOo r hr) hpO)
      dsimp only; omega) (by
      intro mv hmv u hu heq
      obtain ⟨s, j, p, hs, hjb, hpI, hpO, rfl⟩ := (g.unpacks r job hj mv).1 hmv
      obtain ⟨s', j', p', hs', hjb', hpI', hpO', rfl⟩ := (g.unpacks r job hj u).1 hu
      dsimp only at heq ⊢
      have hro := Box.offset_range (hOo r hr) hpO
      have hro' := Box.offset_range (hOo r hr) hpO'
      obtain ⟨hjj, hoff⟩ := entry_inj (A := 0) (nb := nb) (e := (O r).count) le_rfl hro hro' (by linarith) hjb
      have hpp := Box.offset_inj (hOo r hr) hpO hpO' hoff
      subst hpp
      have := huniq s s' hs hs' p hpI hpI'
      rw [hjj, this])
    refine ⟨d, g1, g2, ?_, ?_⟩
    · intro j hjb p hpO
      obtain ⟨s, hs, hpI⟩ := hcov r hr p hpO
      have hch := g.cover s r hs hr (msgCount_pos hpI hpO)
      rw [hOc]
      rw [g3 _ ((g.unpacks r job hj _).2 ⟨s, j, p, hs, hjb, hpI, hpO, rfl⟩)]
      exact hval s j p hch hjb hpI hpO
    · intro a ha
      apply g4
      intro mv hmv heq
      obtain ⟨s, j, p, hs, hjb, hpI, hpO, rfl⟩ := (g.unpacks r job hj mv).1 hmv
      have := mul_count_le hjb (Box.offset_range (hOo r hr) hpO)
      dsimp only at heq; omega)
  simp only [Nat.zero_add] at hup
  refine ⟨dsts, ?_, ?_, ?_⟩
  · unfold runJobs
    rw [hpk]
    simp only [bind, Except.bind, hdel, Bool.not_true, Bool.false_eq_true, if_false, hrc, hsf, hun]
  · rw [hul]; simp [g.len, hlen, hsl, hrl, hpl]
  · intro r m hm
    have hr := hlt hm
    obtain ⟨job, m', rws, hj, hm', hrw, -, -⟩ := hrcd hr
    rw [hm] at hm'; cases hm'
    have h1 := (hzip r (job, m)).2 ⟨hj, hm⟩
    obtain ⟨ws2, hw2, -, -⟩ := hsp r ((job, m), rws) (List.getElem?_zip_eq_some.2 ⟨h1, hrw⟩)
    exact hup r ((job, m), ws2) (List.getElem?_zip_eq_some.2 ⟨h1, hw2⟩)

end Verif
