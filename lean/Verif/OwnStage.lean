import Verif.OwnFacts
import Verif.ReshapeRun

/-!
# A reshape of all the ranks together is a history of ranks at their own speed
-/

namespace Verif

section
variable {κ μ ρ : Type} [DecidableEq κ] {n : Nat} {next : Nat → ρ → Todo κ μ ρ}

/-- All the ranks send, then all of them receive: the channels are empty afterwards. -/
theorem two_phases {x y z : Nat → ρ} {i o : Nat → κ → Nat → List μ} (h1 : ∀ r, r < n → Path (next r) (x r) silence (o r) (y r))
    (h2 : ∀ r, r < n → Path (next r) (y r) (i r) silence (z r)) (hio : ∀ r, r < n → ∀ s, s < n → ∀ k, i r k s = o s k r)
    (hi : ∀ r, r < n → ∀ s, n ≤ s → ∀ k, i r k s = []) (ho : ∀ s, s < n → ∀ d, n ≤ d → ∀ k, o s k d = [])
    {st : Net κ μ ρ} (hst : ∀ r, r < n → st.loc r = x r) (hc : ∀ k s d, st.chan k s d = []) :
    ∃ j st', Net.Runs n next j st st' ∧ (∀ r, r < n → st'.loc r = z r) ∧ ∀ k s d, st'.chan k s d = [] := by
  obtain ⟨j1, r1⟩ := sweep (next := next) (x := st.loc) (y := y) (i := fun _ => silence) (o := o) (chan := st.chan) (n := n)
    (fun r hr => by rw [hst r hr]; exact h1 r hr) (fun r _ k s => by simp [silence]) n le_rfl
  let chan' : κ → Nat → Nat → List μ := fun k s d => (if d < n then (st.chan k s d).drop ((silence : κ → Nat → List μ) k s).length else st.chan k s d) ++
    if s < n then o s k d else []
  have hch : ∀ k s d, chan' k s d = if s < n then o s k d else [] := by
    intro k s d
    simp only [chan', hc, List.drop_nil, ite_self, List.nil_append]
  obtain ⟨j2, r2⟩ := sweep (next := next) (x := fun r => if r < n then y r else st.loc r) (y := z) (i := i) (o := fun _ => silence) (chan := chan') (n := n)
    (fun r hr => by rw [if_pos hr]; exact h2 r hr)
    (fun r hr k s => by
      rw [hch]
      split
      · rename_i hs; rw [hio r hr s hs k]
      · rename_i hs; rw [hi r hr s (by omega) k]) n le_rfl
  refine ⟨j1 + j2, _, r1.trans r2, fun r hr => ?_, fun k s d => ?_⟩
  · dsimp only
    rw [if_pos hr]
  · dsimp only
    rw [hch]
    by_cases hd : d < n
    · rw [if_pos hd]
      by_cases hs : s < n
      · rw [if_pos hs, if_pos hs, hio d hd s hs k, List.drop_length]; rfl
      · rw [if_neg hs, if_neg hs, List.drop_nil]; rfl
    · rw [if_neg hd]
      by_cases hs : s < n
      · rw [if_pos hs, if_pos hs, ho s hs d (by omega) k]; rfl
      · rw [if_neg hs, if_neg hs]; rfl

/-- All the ranks work on their own. -/
theorem one_phase {x y : Nat → ρ} (h1 : ∀ r, r < n → Path (next r) (x r) silence silence (y r)) {st : Net κ μ ρ} (hst : ∀ r, r < n → st.loc r = x r)
    (hc : ∀ k s d, st.chan k s d = []) : ∃ j st', Net.Runs n next j st st' ∧ (∀ r, r < n → st'.loc r = y r) ∧ ∀ k s d, st'.chan k s d = [] :=
  two_phases (i := fun _ => silence) (o := fun _ => silence) h1 (fun _ _ => .refl _) (fun _ _ _ _ _ => rfl) (fun _ _ _ _ _ => rfl)
    (fun _ _ _ _ _ => rfl) hst hc
end

section
variable {α : Type}

/-- The same writes in another order. -/
theorem writeAll_perm {l l' : List (Int × Option α)} (hp : l'.Perm l) {mem r : List α} (h : writeAll l mem = .ok r)
    (hc : ∀ w ∈ l, ∀ v ∈ l, w.1 = v.1 → w.2 = v.2) : writeAll l' mem = .ok r := by
  have hb : ∀ w ∈ l, w.2.isSome ∧ 0 ≤ w.1 ∧ w.1 < mem.length := by
    intro w hw
    by_contra hn
    have := writeAll_ub (mem := mem) hw (by
      by_contra hh
      refine hn ⟨?_, ?_, ?_⟩
      · rw [Option.isSome_iff_ne_none]; exact fun e => hh (.inl e)
      · by_contra h; exact hh (.inr (.inl (by omega)))
      · by_contra h; exact hh (.inr (.inr (by omega))))
    rw [h] at this
    cases this
  obtain ⟨r1, e1, l1, w1, o1⟩ := writeAll_ok l mem hb hc
  obtain ⟨r2, e2, l2, w2, o2⟩ := writeAll_ok l' mem (fun w hw => hb w (hp.mem_iff.1 hw)) (fun w hw v hv => hc w (hp.mem_iff.1 hw) v (hp.mem_iff.1 hv))
  obtain rfl := Except.ok.inj (e1.symm.trans h)
  rw [e2]
  congr 1
  refine List.ext_getElem? fun i => ?_
  have key : rd r2 (i : Int) = rd r1 i := by
    by_cases hi : ∃ w ∈ l, w.1 = (i : Int)
    · obtain ⟨w, hw, hi⟩ := hi
      rw [← hi, w1 w hw, w2 w (hp.mem_iff.2 hw)]
    · have hi : ∀ w ∈ l, w.1 ≠ (i : Int) := fun w hw e => hi ⟨w, hw, e⟩
      rw [o1 _ hi, o2 _ fun w hw => hi w (hp.mem_iff.1 hw)]
  simpa [rd] using key

theorem range_filter_get {β : Type} (l : List β) (q : β → Bool) :
    (((List.range l.length).filter fun j => ((l[j]?).map q).getD false).map fun j => l[j]?) = (l.filter q).map some := by
  have e : l.map some = (List.range l.length).map fun j => l[j]? := by
    refine List.ext_getElem? fun i => ?_
    rw [List.getElem?_map, List.getElem?_map]
    by_cases hi : i < l.length
    · rw [List.getElem?_range hi, List.getElem?_eq_getElem hi]; simp [hi]
    · rw [List.getElem?_eq_none (by omega), List.getElem?_eq_none (by simpa using hi)]; rfl
  have := congrArg (List.filter fun x : Option β => (x.map q).getD false) e
  rw [List.filter_map, List.filter_map] at this
  exact this.symm

theorem flatMap_range {β δ : Type} (l : List β) (f : β → List δ) : l.flatMap f = (List.range l.length).flatMap fun j => match l[j]? with
    | some b => f b
    | none => [] := by
  have e : l.map some = (List.range l.length).map fun j => l[j]? := by
    refine List.ext_getElem? fun i => ?_
    rw [List.getElem?_map, List.getElem?_map]
    by_cases hi : i < l.length
    · rw [List.getElem?_range hi, List.getElem?_eq_getElem hi]; simp [hi]
    · rw [List.getElem?_eq_none (by omega), List.getElem?_eq_none (by simpa using hi)]; rfl
  have := congrArg (List.flatMap fun x : Option β => match x with
    | some b => f b
    | none => []) e
  rw [List.flatMap_map, List.flatMap_map] at this
  exact this

end

section
variable {α β γ : Type}

/-- The contents of the message `s` of a rank with the workspace `ws`. -/
def contents (L : Lane α β γ) (ws : List γ) (s : Msg) : Packet α β := L.inj ((loop s.len).map fun t => rd ws (s.addr + t))

/-- The contents of the receive number `j` of rank `r`. -/
def payload (L : Lane α β γ) (jobs : List Job) (packed : List (List γ)) (r : Nat) (job : Job) (j : Nat) : Packet α β :=
  match job.recvs[j]? with
  | some q => match matchSend jobs r q, packed[q.peer]? with
    | some s, some ws => contents L ws s
    | _, _ => L.inj []
  | none => L.inj []

theorem matchSend_some {jobs : List Job} {r : Nat} {q s : Msg} (h : matchSend jobs r q = some s) :
    ∃ job, jobs[q.peer]? = some job ∧ (job.sends.filter fun s => decide (s.peer = r)) = [s] ∧ s.len = q.len := by
  unfold matchSend at h
  split at h
  · rename_i s' hs'
    rw [Option.map_eq_some_iff] at hs'
    obtain ⟨job, h1, h2⟩ := hs'
    split at h
    · rename_i hl
      obtain rfl := Option.some.inj h
      exact ⟨job, h1, h2, hl⟩
    · cases h
  · cases h

/-- What a rank takes from `s` is what `s` has sent. -/
theorem taken_eq (L : Lane α β γ) {jobs : List Job} {packed : List (List γ)} (hpl : packed.length = jobs.length)
    (hd : ∀ r job, jobs[r]? = some job → deliverable jobs r job = true) {r s : Nat} {jr js : Job} (hr : jobs[r]? = some jr) (hs : jobs[s]? = some js)
    {ws : List γ} (hws : packed[s]? = some ws) {ord : List Nat} (ho : ord.Perm (List.range jr.recvs.length)) :
    takenFrom jr.recvs (payload L jobs packed r jr) ord s = (js.sends.filter fun m => decide (m.peer = r)).map (contents L ws) := by
  have hdr := hd r jr hr
  have hds := hd s js hs
  unfold deliverable at hdr hds
  simp only [Bool.and_eq_true, List.all_eq_true] at hdr hds
  have hperm := ho.filter fun j => decide (((jr.recvs[j]?).map Msg.peer).getD 0 = s)
  have e1 : ((List.range jr.recvs.length).filter fun j => decide (((jr.recvs[j]?).map Msg.peer).getD 0 = s)) =
      (List.range jr.recvs.length).filter fun j => ((jr.recvs[j]?).map fun m => decide (m.peer = s)).getD false := by
    refine List.filter_congr fun j hj => ?_
    rw [List.getElem?_eq_getElem (List.mem_range.1 hj)]
    rfl
  have e2 := range_filter_get jr.recvs fun m => decide (m.peer = s)
  rw [← e1] at e2
  unfold takenFrom
  cases hf : js.sends.filter fun m => decide (m.peer = r) with
  | nil =>
    have : (jr.recvs.filter fun m => decide (m.peer = s)) = [] := by
      rw [List.filter_eq_nil_iff]
      intro q hq hqs
      have hqs := of_decide_eq_true hqs
      obtain ⟨s', h'⟩ := Option.isSome_iff_exists.1 (hdr.1.1 q hq)
      obtain ⟨job, h1, h2, -⟩ := matchSend_some h'
      rw [hqs, hs] at h1
      obtain rfl := Option.some.inj h1
      rw [h2] at hf
      cases hf
    rw [this] at e2
    have : ((List.range jr.recvs.length).filter fun j => decide (((jr.recvs[j]?).map Msg.peer).getD 0 = s)) = [] := by
      simpa using e2
    rw [this] at hperm
    rw [hperm.eq_nil]
    rfl
  | cons m tl =>
    have hm : m ∈ js.sends ∧ m.peer = r := by
      have : m ∈ js.sends.filter fun m => decide (m.peer = r) := by rw [hf]; simp
      rw [List.mem_filter] at this
      exact ⟨this.1, of_decide_eq_true this.2⟩
    have h1 := hds.1.2 m hm.1
    rw [hm.2, hr] at h1
    have h1 := of_decide_eq_true h1
    obtain ⟨q, hq⟩ := List.length_eq_one_iff.1 h1
    have hq' : q ∈ jr.recvs ∧ q.peer = s := by
      have : q ∈ jr.recvs.filter fun m => decide (m.peer = s) := by rw [hq]; simp
      rw [List.mem_filter] at this
      exact ⟨this.1, of_decide_eq_true this.2⟩
    obtain ⟨s', h'⟩ := Option.isSome_iff_exists.1 (hdr.1.1 q hq'.1)
    obtain ⟨job, h2, h3, -⟩ := matchSend_some h'
    rw [hq'.2, hs] at h2
    obtain rfl := Option.some.inj h2
    rw [hf] at h3
    obtain ⟨rfl, rfl⟩ := List.cons.inj h3
    rw [hq] at e2
    obtain ⟨j, hj⟩ : ∃ j, ((List.range jr.recvs.length).filter fun j => decide (((jr.recvs[j]?).map Msg.peer).getD 0 = s)) = [j] :=
      List.length_eq_one_iff.1 (by have := congrArg List.length e2; simpa using this)
    rw [hj] at e2 hperm
    simp only [List.map_cons, List.map_nil, List.cons.injEq, and_true] at e2
    rw [List.perm_singleton.1 hperm]
    simp only [List.map_cons, List.map_nil, List.cons.injEq, and_true]
    unfold payload
    rw [e2]
    dsimp only
    rw [h', hq'.2, hws]

/-- The receive buffers do not overlap. -/
def RecvsApart (recvs : List Msg) : Prop := recvs.Pairwise fun a b => a.addr + a.len ≤ b.addr ∨ b.addr + b.len ≤ a.addr

/-- What the receive number `j` of rank `r` writes. -/
def writesAt (jobs : List Job) (packed : List (List γ)) (r : Nat) (jr : Job) (j : Nat) : List (Int × Option γ) :=
  match jr.recvs[j]? with
  | some m => match matchSend jobs r m with
    | some s => (loop m.len).map fun t => (m.addr + t, (packed[m.peer]?).bind fun ws => rd ws (s.addr + t))
    | none => []
  | none => []

/-- The messages of a rank are written as in the model of all the ranks together. -/
theorem arrivals_eq (L : Lane α β γ) (hL : ∀ l, L.prj (L.inj l) = some l) {jobs : List Job} {packed : List (List γ)} (hpl : packed.length = jobs.length)
    {r : Nat} {jr : Job} (hdr : ∀ m ∈ jr.recvs, (matchSend jobs r m).isSome = true) {job' : Job} (hj : job'.recvs = jr.recvs)
    {ord : List Nat} (hb : ∀ j ∈ ord, j < jr.recvs.length) : arrivals L job' (ord.map fun j => (j, payload L jobs packed r jr j)) =
      .ok (ord.flatMap fun j => writesAt jobs packed r jr j) := by
  induction ord with
  | nil => rfl
  | cons j t ih =>
    have hjl := hb j (by simp)
    have ih := ih fun k hk => hb k (by simp [hk])
    rw [List.map_cons, List.flatMap_cons]
    unfold arrivals
    rw [hj, List.getElem?_eq_getElem hjl, ih]
    obtain ⟨s, hs⟩ := Option.isSome_iff_exists.1 (hdr _ (List.getElem_mem hjl))
    obtain ⟨job, h1, -, hlen⟩ := matchSend_some hs
    have hp : (jr.recvs[j]).peer < packed.length := by rw [hpl]; exact (List.getElem?_eq_some_iff.1 h1).1
    have e : payload L jobs packed r jr j = contents L packed[(jr.recvs[j]).peer] s := by
      unfold payload
      rw [List.getElem?_eq_getElem hjl]
      dsimp only
      rw [hs, List.getElem?_eq_getElem hp]
    rw [e]
    unfold contents writesAt
    rw [hL, List.getElem?_eq_getElem hjl]
    dsimp only
    rw [hs, if_pos (by simp [loop, hlen])]
    dsimp only [bind, Except.bind]
    congr 2
    refine List.map_congr_left fun k hk => ?_
    rw [mem_loop] at hk
    rw [List.getElem?_eq_getElem hp]
    congr 1
    have h0 : k.toNat < (loop s.len).length := by simp only [loop, List.length_map, List.length_range, hlen]; omega
    rw [List.getElem?_eq_getElem (by simpa using h0)]
    simp only [List.getElem_map, Option.join_some, Option.bind_some]
    congr 1
    simp only [loop, List.getElem_map, List.getElem_range, Int.ofNat_eq_natCast]
    omega

theorem arrivals_write (L : Lane α β γ) (hL : ∀ l, L.prj (L.inj l) = some l) {jobs : List Job} {packed : List (List γ)} (hpl : packed.length = jobs.length)
    {r : Nat} {jr : Job} (hdr : ∀ m ∈ jr.recvs, (matchSend jobs r m).isSome = true) {job' : Job} (hj : job'.recvs = jr.recvs)
    {ord : List Nat} (ho : ord.Perm (List.range jr.recvs.length)) (hap : ord = List.range jr.recvs.length ∨ RecvsApart jr.recvs) {ws ws' : List γ}
    (h : writeAll (deliveries jobs packed r jr) ws = .ok ws') :
    ∃ w, arrivals L job' (ord.map fun j => (j, payload L jobs packed r jr j)) = .ok w ∧ writeAll w ws = .ok ws' := by
  refine ⟨_, arrivals_eq L hL hpl hdr hj fun j hj => List.mem_range.1 (ho.mem_iff.1 hj), ?_⟩
  have e : deliveries jobs packed r jr = (List.range jr.recvs.length).flatMap fun j => writesAt jobs packed r jr j := by
    unfold deliveries
    rw [flatMap_range]
    refine List.flatMap_congr fun j _ => ?_
    unfold writesAt
    cases jr.recvs[j]? <;> rfl
  rcases hap with rfl | hap
  · rw [← e]; exact h
  · refine writeAll_perm (l := deliveries jobs packed r jr) ?_ h ?_
    · rw [e]
      exact ho.flatMap_right _
    · intro w hw v hv hwv
      unfold deliveries at hw hv
      rw [List.mem_flatMap] at hw hv
      obtain ⟨m, hm, hw⟩ := hw
      obtain ⟨m', hm', hv⟩ := hv
      have hmm : m = m' := by
        by_contra hne
        have : ∀ {a b : Msg}, a ∈ jr.recvs → b ∈ jr.recvs → a ≠ b → a.addr + a.len ≤ b.addr ∨ b.addr + b.len ≤ a.addr := by
          intro a b ha hb hab
          haveI : Std.Symm fun a b : Msg => a.addr + a.len ≤ b.addr ∨ b.addr + b.len ≤ a.addr := ⟨fun _ _ h => h.symm⟩
          exact List.Pairwise.forall hap ha hb hab
        have h2 := this hm hm' hne
        split at hw
        · split at hv
          · rw [List.mem_map] at hw hv
            obtain ⟨k, hk, rfl⟩ := hw
            obtain ⟨k', hk', rfl⟩ := hv
            rw [mem_loop] at hk hk'
            dsimp only at hwv
            omega
          · simp at hv
        · simp at hw
      subst hmm
      split at hw
      · rename_i s hs
        rw [hs] at hv
        rw [List.mem_map] at hw hv
        obtain ⟨k, hk, rfl⟩ := hw
        obtain ⟨k', hk', rfl⟩ := hv
        dsimp only at hwv ⊢
        obtain rfl : k = k' := by omega
        rfl
      · simp at hw

end
end Verif
