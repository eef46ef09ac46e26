import Verif.OwnMain
import Verif.Calls

/-!
# Programs with constructed objects at their own speed
-/

namespace Verif

section
variable {α β γ υ : Type}

/-- The object of a call comes from a constructor: `fft3d` and `fft3d_r2c` with any backend. -/
def OwnCall.Made (n : Nat) (C : OwnCall υ α β) (p : Plan) : Prop :=
  ∃ r2c wi wo alg ex, PlanFacts p r2c wi wo n ∧ SetupOk alg p C.fft n ex

theorem p2p_recvs_length {direct : Bool} {bin bout : List Box} {stride nb r : Nat} {done : List Nat} (h : bout.length = bin.length) (hr : r < bin.length) :
    ((objP direct bin bout r).job direct stride nb done).recvs.length = (Senders bin bout r).card := by
  rw [← requestsP_card (direct := direct) h hr]
  unfold PointToPoint.job requestsP
  dsimp only
  rw [List.length_map, List.length_zip, Nat.min_eq_left]
  unfold objP
  dsimp only
  have hle : (dropSelf (decide (0 < cnt bin bout r r)) (recvEntries direct bin r (boxAt bout r))).length ≤ (recvEntries direct bin r (boxAt bout r)).length := by
    unfold dropSelf
    split
    · rw [List.length_dropLast]; omega
    · exact le_rfl
  by_cases hne : (recvEntries direct bin r (boxAt bout r)).map Entry.size = []
  · rw [List.map_eq_nil_iff] at hne
    rw [hne] at hle ⊢
    simp only [List.length_nil, Nat.le_zero] at hle
    omega
  · rw [recvLocs_length _ _ hne, List.length_map]
    exact hle

theorem p2p_recvs_apart {direct : Bool} {bin bout : List Box} (hs : Setup direct bin bout) {stride nb r : Nat} {done : List Nat} (hr : r < bin.length) :
    RecvsApart ((objP direct bin bout r).job direct stride nb done).recvs := by
  have g := goodP hs (Nat.one_pos) nb (fun r => List.range (requestsP (objP direct bin bout r))) (fun _ _ => .refl _)
  have hj : ((List.range bin.length).map fun r => (objP direct bin bout r).job direct 1 nb (List.range (requestsP (objP direct bin bout r))))[r]? =
      some ((objP direct bin bout r).job direct 1 nb (List.range (requestsP (objP direct bin bout r)))) := by
    rw [List.getElem?_map, List.getElem?_range hr]; rfl
  have e : ((objP direct bin bout r).job direct stride nb done).recvs =
      ((objP direct bin bout r).job direct 1 nb (List.range (requestsP (objP direct bin bout r)))).recvs := rfl
  rw [e]
  have hn := g.recvsNodup r _ hj
  have hm := g.recvs r _ hj
  unfold RecvsApart
  refine (List.pairwise_map.1 hn).imp_of_mem fun {a b} ha hb hab => ?_
  obtain ⟨s, hs, rfl⟩ := (hm a).1 ha
  obtain ⟨s', hs', rfl⟩ := (hm b).1 hb
  exact g.recvApart s s' r (.inl hs) (.inl hs') hab

/-- The reshapes of a constructed object. -/
theorem made_shaper {C : OwnCall υ α β} {p : Plan} {n : Nat} (h : C.Made n p) (i : Fin 4) : (C.fft.shapers C.fwd i).length = n ∧
    (p.before C.fwd i).length = n ∧ (p.after C.fwd i).length = n ∧ Redistribution (p.before C.fwd i) (p.after C.fwd i) (worldAt h.choose_spec.choose h.choose_spec.choose_spec.choose (stageOf C.fwd i)) ∧
    ((∀ r sh, shaperAt (C.fft.shapers C.fwd) r i = some sh → ∃ pl, sh = .transpose pl) ∨
      ∃ alg g, ∀ r sh, shaperAt (C.fft.shapers C.fwd) r i = some sh → r < n ∧
        commShaper alg (directOf (p.before C.fwd i) (p.after C.fwd i)) (p.before C.fwd i) (p.after C.fwd i) g r = some sh) := by
  obtain ⟨alg, ex, hp, hs⟩ := h.choose_spec.choose_spec.choose_spec
  have hr := hp.call C.fwd i
  have hsh := hs.shapers C.fwd i
  have hl := shapersOf_length hr hsh
  rw [hp.lenBefore] at hl
  refine ⟨hl, hp.lenBefore _ _, hp.lenAfter _ _, hr, ?_⟩
  rcases shapersOf_cases hr alg with ⟨-, e⟩ | ⟨-, g, -, e⟩
  · left
    intro r sh hat
    obtain e := Except.ok.inj (hsh.symm.trans e)
    unfold shaperAt at hat
    rw [e, List.getElem?_map] at hat
    by_cases hrn : r < (p.before C.fwd i).length
    · rw [List.getElem?_range hrn] at hat
      simp only [Option.map_some, Option.join_some] at hat
      unfold matchShaper at hat
      split at hat
      · cases hat
      · split at hat
        · cases hat
        · exact ⟨_, (Option.some.inj hat).symm⟩
    · rw [List.getElem?_eq_none (by simpa using hrn)] at hat
      cases hat
  · right
    refine ⟨alg, g, fun r sh hat => ?_⟩
    obtain e := Except.ok.inj (hsh.symm.trans e)
    unfold shaperAt at hat
    rw [e, List.getElem?_map] at hat
    by_cases hrn : r < (p.before C.fwd i).length
    · rw [List.getElem?_range hrn] at hat
      simp only [Option.map_some, Option.join_some] at hat
      exact ⟨by rw [hp.lenBefore] at hrn; exact hrn, hat⟩
    · rw [List.getElem?_eq_none (by simpa using hrn)] at hat
      cases hat

theorem made_p2p {C : OwnCall υ α β} {p : Plan} {n : Nat} (h : C.Made n p) {i : Fin 4} {r : Nat} {d : Bool} {o : PointToPoint}
    (hat : shaperAt (C.fft.shapers C.fwd) r i = some (.p2p d o)) : r < n ∧ d = directOf (p.before C.fwd i) (p.after C.fwd i) ∧ o = objP d (p.before C.fwd i) (p.after C.fwd i) r := by
  obtain ⟨-, -, -, -, hc⟩ := made_shaper h i
  rcases hc with hc | ⟨alg, g, hc⟩
  · obtain ⟨pl, hpl⟩ := hc r _ hat
    cases hpl
  · obtain ⟨hr, hc⟩ := hc r _ hat
    refine ⟨hr, ?_⟩
    unfold commShaper at hc
    split at hc
    · rw [Option.map_eq_some_iff] at hc
      obtain ⟨_, -, hc⟩ := hc
      cases hc
    · rw [Option.map_eq_some_iff] at hc
      obtain ⟨_, -, hc⟩ := hc
      cases hc
    · obtain ⟨rfl, rfl⟩ := Shaper.p2p.inj (Option.some.inj hc)
      exact ⟨rfl, rfl⟩
    · obtain ⟨rfl, rfl⟩ := Shaper.p2p.inj (Option.some.inj hc)
      exact ⟨rfl, rfl⟩

/-- Constructed objects satisfy what is needed. -/
theorem made_sound {C : OwnCall υ α β} {p : Plan} {n : Nat} (h : C.Made n p) : C.Sound n := by
  intro i
  obtain ⟨hl, hb, ha, hr, hc⟩ := made_shaper h i
  refine ⟨hl, ?_, fun r d o hat => ?_⟩
  · rcases hc with hc | ⟨alg, g, hc⟩
    · refine ⟨some (C.plan, C.fwd, i), fun r sh hat => ?_⟩
      obtain ⟨pl, rfl⟩ := hc r sh hat
      rfl
    · cases alg with
      | alltoallv =>
        refine ⟨some (C.plan, C.fwd, i), fun r sh hat => ?_⟩
        obtain ⟨-, hc⟩ := hc r sh hat
        unfold commShaper at hc
        rw [Option.map_eq_some_iff] at hc
        obtain ⟨_, -, rfl⟩ := hc
        rfl
      | alltoall =>
        refine ⟨some (C.plan, C.fwd, i), fun r sh hat => ?_⟩
        obtain ⟨-, hc⟩ := hc r sh hat
        unfold commShaper at hc
        rw [Option.map_eq_some_iff] at hc
        obtain ⟨_, -, rfl⟩ := hc
        rfl
      | p2p =>
        refine ⟨none, fun r sh hat => ?_⟩
        obtain ⟨-, hc⟩ := hc r sh hat
        obtain rfl := Option.some.inj hc
        rfl
      | p2pPlined =>
        refine ⟨none, fun r sh hat => ?_⟩
        obtain ⟨-, hc⟩ := hc r sh hat
        obtain rfl := Option.some.inj hc
        rfl
  · obtain ⟨hrn, rfl, rfl⟩ := made_p2p h hat
    exact p2p_recvs_apart (hr.setup rfl) (by rw [hb]; exact hrn)

theorem made_recvs {C : OwnCall υ α β} {p : Plan} {n : Nat} (h : C.Made n p) {i : Fin 4} {r : Nat} {d : Bool} {o : PointToPoint}
    (hat : shaperAt (C.fft.shapers C.fwd) r i = some (.p2p d o)) :
    (C.recvs (.p2p d o)).length = (Senders (p.before C.fwd i) (p.after C.fwd i) r).card := by
  obtain ⟨hl, hb, ha, hr, -⟩ := made_shaper h i
  obtain ⟨hrn, rfl, rfl⟩ := made_p2p h hat
  exact p2p_recvs_length (by rw [hb, ha]) (by rw [hb]; exact hrn)

/-! ## The orders matter only for messages -/

/-- The orders agree where the reshapes use messages. -/
def SameOrders (shs : List (Option Shaper)) (done done' : Nat → List Nat) : Prop := ∀ (r : Nat) d o, shs[r]? = some (some (.p2p d o)) → done r = done' r

theorem runStage_orders {K : Kernel α β} {env : Nat → Env} {port : Nat → Port α β γ} {i : Fin 4} {stride nb : Nat} {done done' : Nat → List Nat}
    {shs : List (Option Shaper)} (h : SameOrders shs done done') (sts : State α β) :
    runStage K env port i stride nb done shs sts = runStage K env port i stride nb done' shs sts := by
  have e : (shs.zipIdx.map fun x => Shaper.job stride nb (done x.2) x.1) = shs.zipIdx.map fun x => Shaper.job stride nb (done' x.2) x.1 := by
    refine List.map_congr_left fun x hx => ?_
    rw [List.mem_iff_getElem?] at hx
    obtain ⟨k, hk⟩ := hx
    rw [List.getElem?_zipIdx, Option.map_eq_some_iff] at hk
    obtain ⟨y, hy, rfl⟩ := hk
    simp only [Nat.zero_add]
    cases y with
    | none => rfl
    | some sh =>
      cases sh with
      | p2p d o => rw [h k d o hy]
      | alltoall d o => rfl
      | alltoallv d o => rfl
      | transpose p => rfl
  unfold runStage reshapeAll
  rw [e]

theorem together_orders {K : Kernel α β} {C : OwnCall υ α β} {D D' : Fin 4 → Nat → List Nat} (h : ∀ i, SameOrders (C.fft.shapers C.fwd i) (D i) (D' i)) (us : List υ) :
    (C.withOrder D).together K us = (C.withOrder D').together K us := by
  unfold OwnCall.together OwnCall.withOrder transform
  dsimp only
  simp only [runStage_orders (h 0), runStage_orders (h 1), runStage_orders (h 2), runStage_orders (h 3)]

theorem allTogether_orders {K : Kernel α β} {D D' : Nat → Fin 4 → Nat → List Nat} : ∀ {calls : List (OwnCall υ α β)} (k : Nat),
    (∀ c C, calls[c]? = some C → ∀ i, SameOrders (C.fft.shapers C.fwd i) (D (k + c) i) (D' (k + c) i)) → ∀ us : List υ,
    allTogether K (calls.mapIdx fun c C => C.withOrder (D (k + c))) us = allTogether K (calls.mapIdx fun c C => C.withOrder (D' (k + c))) us
  | [], _, _, _ => rfl
  | C :: t, k, h, us => by
    rw [List.mapIdx_cons, List.mapIdx_cons]
    unfold allTogether
    have h0 := h 0 C rfl
    rw [Nat.add_zero] at h0 ⊢
    rw [together_orders h0]
    have ih := fun us => allTogether_orders (K := K) (D := D) (D' := D') (calls := t) (k + 1) (fun c C hC => by
      have := h (c + 1) C (by simpa using hC)
      rw [show k + 1 + c = k + (c + 1) by omega]
      exact this) us
    have e : ∀ D : Nat → Fin 4 → Nat → List Nat, (t.mapIdx fun c C => C.withOrder (D (k + (c + 1)))) = t.mapIdx fun c C => C.withOrder (D (k + 1 + c)) := by
      intro D
      congr 1
      funext c C
      rw [show k + 1 + c = k + (c + 1) by omega]
    simp only [bind, Except.bind]
    rw [e, e]
    split
    · rfl
    · exact ih _

/-- Programs with constructed objects: what is true of the program of all the ranks together for all possible orders of the messages is
true of ranks at their own speed. -/
theorem own_speed_made {K : Kernel α β} {calls : List (OwnCall υ α β)} {n : Nat} {us : Nat → υ} {Q : List υ → Prop} {plan : Nat → Plan}
    (hM : ∀ c (C : OwnCall υ α β), calls[c]? = some C → C.Made n (plan c))
    (h : ∀ D : Nat → Fin 4 → Nat → List Nat, (∀ c (C : OwnCall υ α β), calls[c]? = some C → ∀ i, ArrivalOrder ((plan c).before C.fwd i) ((plan c).after C.fwd i) (D c i)) →
      ∃ us', allTogether K (withOrders D calls) ((List.range n).map us) = .ok us' ∧ Q us')
    {k : Nat} {st : Net (Option (Nat × Bool × Fin 4)) (Packet α β) (OwnRank υ α β)} (hr : Net.Runs n (ownNext K anyOrder calls) k (ownStart us) st) :
    k ≤ ∑ r ∈ Finset.range n, (calls.map fun C => C.steps r).sum ∧
    (∀ r, r < n → ownNext K anyOrder calls r (st.loc r) ≠ .fail) ∧
    ((∃ st', Net.Move n (ownNext K anyOrder calls) st st') ∨
      ((∀ r, r < n → (st.loc r).calls = calls.length) ∧ (∀ key s d, st.chan key s d = []) ∧ Q ((List.range n).map fun r => (st.loc r).user))) := by
  classical
  refine own_speed (fun C hC => ?_) (fun D hD => ?_) hr
  · obtain ⟨c, hc⟩ := List.getElem?_of_mem hC
    exact made_sound (hM c C hc)
  · let D' : Nat → Fin 4 → Nat → List Nat := fun c i r => match calls[c]? with
      | none => []
      | some C => match (shaperAt (C.fft.shapers C.fwd) r i) with
        | some (.p2p _ _) => D c i r
        | _ => List.range (Senders ((plan c).before C.fwd i) ((plan c).after C.fwd i) r).card
    obtain ⟨us', h1, h2⟩ := h D' (fun c C hC i r hrn => by
      simp only [D', hC]
      split
      · rename_i d o hat
        rw [← made_recvs (hM c C hC) hat]
        exact hD c C hC i r d o hat
      · exact .refl _)
    refine ⟨us', ?_, h2⟩
    rw [← h1]
    have := allTogether_orders (K := K) (D := D) (D' := D') (calls := calls) 0 (fun c C hC i r d o hat => by
      simp only [Nat.zero_add, D', hC]
      have e : shaperAt (C.fft.shapers C.fwd) r i = some (.p2p d o) := by unfold shaperAt; rw [hat]; rfl
      rw [e]) ((List.range n).map us)
    simpa [withOrders] using this

end
end Verif
