import Verif.OwnCalls

/-!
# Histories of ranks at their own speed

In a history each reshape meets its messages in some order.  With these orders the history is one without choices, and by the confluence
of such histories it leads to the result of all the ranks together.
-/

namespace Verif

section
variable {κ μ ρ : Type} [DecidableEq κ] {n : Nat} {next : Nat → ρ → Todo κ μ ρ}

theorem Net.Runs.last : ∀ {k : Nat} {a c : Net κ μ ρ}, Net.Runs n next (k + 1) a c → ∃ b, Net.Runs n next k a b ∧ Net.Move n next b c
  | 0, a, c, h => by
    cases h with
    | step m t => cases t; exact ⟨a, .refl _, m⟩
  | k + 1, a, c, h => by
    cases h with
    | step m t =>
      obtain ⟨b, t1, t2⟩ := Net.Runs.last t
      exact ⟨b, .step m t1, t2⟩

theorem Net.Runs.zero {a b : Net κ μ ρ} (h : Net.Runs n next 0 a b) : a = b := by cases h; rfl

/-- A rank that has failed does not move. -/
theorem Net.Runs.failed {k : Nat} {a b : Net κ μ ρ} (h : Net.Runs n next k a b) {r : Nat} (hf : next r (a.loc r) = .fail) : b.loc r = a.loc r := by
  induction h with
  | refl => rfl
  | step m t ih =>
    obtain ⟨r', ins, outs, x, hr, hfire, -, rfl⟩ := m
    have hne : r ≠ r' := by
      rintro rfl
      cases hfire with
      | work h => rw [hf] at h; cases h
      | send h => rw [hf] at h; cases h
      | recv m h _ => rw [hf] at h; cases h
    have e : ∀ st : Net κ μ ρ, (st.after r' ins outs x).loc r = st.loc r := fun st => by simp [Net.after, hne]
    rw [ih (by rw [e]; exact hf), e]
end

section
variable {α β υ : Type} {K : Kernel α β} {calls : List (OwnCall υ α β)} {r n : Nat}

/-- The steps of one rank. -/
inductive OwnStep (K : Kernel α β) (calls : List (OwnCall υ α β)) (r : Nat) (x : OwnRank υ α β) (C : OwnCall υ α β) :
    (Option (Nat × Bool × Fin 4) → Nat → List (Packet α β)) → (Option (Nat × Bool × Fin 4) → Nat → List (Packet α β)) → OwnRank υ α β → Prop where
  | start {l : List Instr} (hs : x.spot = .idle)
      (hp : program C.mode (patternOf (shaperAt (C.fft.shapers C.fwd) r) (C.env r).execs (C.inplace r)) = .ok l) :
      OwnStep K calls r x C silence silence { x with spot := .busy l (C.args r x.user) }
  | stop {m : Mem α β} {u : υ} (hs : x.spot = .busy [] m) (hu : C.result r x.user m = .ok u) :
      OwnStep K calls r x C silence silence { x with calls := x.calls + 1, user := u, spot := .idle }
  | send {i : Fin 4} {s d : Buf} {t : List Instr} {m : Mem α β} {sh : Shaper} {msgs : List (Nat × Packet α β)} (hs : x.spot = .busy (.reshape i s d :: t) m)
      (hsh : shaperAt (C.fft.shapers C.fwd) r i = some sh) (hm : C.sends K r i sh m (s, d) = .ok msgs) :
      OwnStep K calls r x C silence (outgoing (C.key i sh) msgs) { x with spot := .wait t m i (s, d) [] }
  | work {a : Instr} {t : List Instr} {m m' : Mem α β} (hs : x.spot = .busy (a :: t) m) (ha : ∀ i s d, a ≠ .reshape i s d)
      (hm : runInstr K (C.env r) a m = .ok m') : OwnStep K calls r x C silence silence { x with spot := .busy t m' }
  | recv {t : List Instr} {m : Mem α β} {i : Fin 4} {sd : Buf × Buf} {got : List (Nat × Packet α β)} {sh : Shaper} {j : Nat} (p : Packet α β)
      (hs : x.spot = .wait t m i sd got) (hsh : shaperAt (C.fft.shapers C.fwd) r i = some sh) (hl : got.length < (C.recvs sh).length)
      (hj : j ∈ awaited (fun _ _ => true) (C.recvs sh) (got.map (·.1)) sh) :
      OwnStep K calls r x C (incoming (C.key i sh) ((((C.recvs sh)[j]?).map Msg.peer).getD 0) p) silence { x with spot := .wait t m i sd (got ++ [(j, p)]) }
  | done {t : List Instr} {m m' : Mem α β} {i : Fin 4} {sd : Buf × Buf} {got : List (Nat × Packet α β)} {sh : Shaper}
      (hs : x.spot = .wait t m i sd got) (hsh : shaperAt (C.fft.shapers C.fwd) r i = some sh) (hl : ¬ got.length < (C.recvs sh).length)
      (hm : C.ends K r i sh m sd got = .ok m') :
      OwnStep K calls r x C silence silence { x with spot := .busy t m', past := x.past ++ [(x.calls, i, got.map (·.1))] }

theorem fire_step {x y : OwnRank υ α β} {ins outs : Option (Nat × Bool × Fin 4) → Nat → List (Packet α β)}
    (h : Fire (ownNext K anyOrder calls r) x ins outs y) : ∃ C, calls[x.calls]? = some C ∧ OwnStep K calls r x C ins outs y := by
  cases hC : calls[x.calls]? with
  | none =>
    have e : ownNext K anyOrder calls r x = .stop := by unfold ownNext; rw [hC]
    cases h with
    | work h => rw [e] at h; cases h
    | send h => rw [e] at h; cases h
    | recv m h _ => rw [e] at h; cases h
  | some C =>
    refine ⟨C, rfl, ?_⟩
    have e : ownNext K anyOrder calls r x = ownNext K anyOrder calls r x := rfl
    conv_rhs at e => unfold ownNext
    rw [hC] at e
    dsimp only at e
    split at e
    · rename_i hs
      split at e
      · rename_i l hp
        cases h with
        | work h => rw [e] at h; cases h; exact .start hs hp
        | send h => rw [e] at h; cases h
        | recv m h _ => rw [e] at h; cases h
      · cases h with
        | work h => rw [e] at h; cases h
        | send h => rw [e] at h; cases h
        | recv m h _ => rw [e] at h; cases h
    · rename_i m hs
      split at e
      · rename_i u hu
        cases h with
        | work h => rw [e] at h; cases h; exact .stop hs hu
        | send h => rw [e] at h; cases h
        | recv m h _ => rw [e] at h; cases h
      · cases h with
        | work h => rw [e] at h; cases h
        | send h => rw [e] at h; cases h
        | recv m h _ => rw [e] at h; cases h
    · rename_i i s d t m hs
      split at e
      · cases h with
        | work h => rw [e] at h; cases h
        | send h => rw [e] at h; cases h
        | recv m h _ => rw [e] at h; cases h
      · rename_i sh hsh
        split at e
        · rename_i msgs hm
          cases h with
          | work h => rw [e] at h; cases h
          | send h => rw [e] at h; cases h; exact .send hs hsh hm
          | recv m h _ => rw [e] at h; cases h
        · cases h with
          | work h => rw [e] at h; cases h
          | send h => rw [e] at h; cases h
          | recv m h _ => rw [e] at h; cases h
    · rename_i a t m hs ha
      split at e
      · rename_i m' hm
        cases h with
        | work h => rw [e] at h; cases h; exact .work ha (fun i s d => by rintro rfl; exact hs i s d rfl) hm
        | send h => rw [e] at h; cases h
        | recv m h _ => rw [e] at h; cases h
      · cases h with
        | work h => rw [e] at h; cases h
        | send h => rw [e] at h; cases h
        | recv m h _ => rw [e] at h; cases h
    · rename_i t m i sd got hs
      split at e
      · cases h with
        | work h => rw [e] at h; cases h
        | send h => rw [e] at h; cases h
        | recv m h _ => rw [e] at h; cases h
      · rename_i sh hsh
        split at e
        · rename_i hl
          cases h with
          | work h => rw [e] at h; cases h
          | send h => rw [e] at h; cases h
          | recv p h hm =>
            rw [e] at h
            cases h
            rw [List.mem_map] at hm
            obtain ⟨j, hj, hjj⟩ := hm
            cases hjj
            exact .recv p hs hsh hl hj
        · rename_i hl
          split at e
          · rename_i m' hm
            cases h with
            | work h => rw [e] at h; cases h; exact .done hs hsh hl hm
            | send h => rw [e] at h; cases h
            | recv m h _ => rw [e] at h; cases h
          · cases h with
            | work h => rw [e] at h; cases h
            | send h => rw [e] at h; cases h
            | recv m h _ => rw [e] at h; cases h

/-- A step is one with other orders as well if they allow the message. -/
theorem step_fire {allow : Nat → Fin 4 → Nat → List Nat → Nat → Bool} {x y : OwnRank υ α β} {C : OwnCall υ α β}
    {ins outs : Option (Nat × Bool × Fin 4) → Nat → List (Packet α β)} (hC : calls[x.calls]? = some C) (h : OwnStep K calls r x C ins outs y)
    (ha : ∀ t m i sd got j p, x.spot = .wait t m i sd got → y.spot = .wait t m i sd (got ++ [(j, p)]) → allow x.calls i r (got.map (·.1)) j = true) :
    Fire (ownNext K allow calls r) x ins outs y := by
  cases h with
  | start hs hp => exact .work (by unfold ownNext; rw [hC]; dsimp only; rw [hs]; dsimp only; rw [hp])
  | stop hs hu => exact .work (by unfold ownNext; rw [hC]; dsimp only; rw [hs]; dsimp only; rw [hu])
  | send hs hsh hm => exact .send (by unfold ownNext; rw [hC]; dsimp only; rw [hs]; dsimp only; rw [hsh]; dsimp only; rw [hm])
  | @work a t m m' hs hn hm =>
    refine .work ?_
    unfold ownNext
    rw [hC]
    dsimp only
    rw [hs]
    cases a with
    | reshape i s d => exact absurd rfl (hn i s d)
    | copy k s d => dsimp only; rw [hm]
    | batch l => dsimp only; rw [hm]
  | @recv t m i sd got sh j p hs hsh hl hj =>
    refine Fire.recv (f := fun q => ({ x with spot := .wait t m i sd (got ++ [(j, q)]) } : OwnRank υ α β))
      (alts := (awaited (allow x.calls i r) (C.recvs sh) (got.map (·.1)) sh).map fun j =>
        ((((C.recvs sh)[j]?).map Msg.peer).getD 0, fun q => { x with spot := .wait t m i sd (got ++ [(j, q)]) })) p ?_ ?_
    · unfold ownNext
      rw [hC]
      dsimp only
      rw [hs]
      dsimp only
      rw [hsh]
      dsimp only
      exact if_pos hl
    · rw [List.mem_map]
      refine ⟨j, ?_, rfl⟩
      have hal := ha t m i sd got j p hs rfl
      cases sh with
      | p2p d o =>
        unfold awaited at hj ⊢
        rw [List.mem_filter] at hj ⊢
        refine ⟨hj.1, ?_⟩
        rw [Bool.and_true] at hj
        rw [hj.2, hal]
        rfl
      | alltoall d o => exact hj
      | alltoallv d o => exact hj
      | transpose p => exact hj
  | @done t m m' i sd got sh hs hsh hl hm =>
    refine .work ?_
    unfold ownNext
    rw [hC]
    dsimp only
    rw [hs]
    dsimp only
    rw [hsh]
    dsimp only
    rw [if_neg (show ¬ got.length < (Shaper.job C.world.stride C.nb [] (some sh)).recvs.length from hl), hm]

/-! ## The orders of a history -/

/-- The order `L` of the reshape number `i` in the call number `c` agrees with what has happened. -/
def AgreeAt (x : OwnRank υ α β) (c : Nat) (i : Fin 4) (L : List Nat) : Prop :=
  (∀ e ∈ x.past, e.1 = c → e.2.1 = i → e.2.2 = L) ∧ ∀ t m sd got, x.spot = .wait t m i sd got → x.calls = c → got.map (·.1) <+: L

theorem agree_step {x y : OwnRank υ α β} {C : OwnCall υ α β} {ins outs : Option (Nat × Bool × Fin 4) → Nat → List (Packet α β)} (hC : calls[x.calls]? = some C)
    (h : OwnStep K calls r x C ins outs y) {D : Nat → Fin 4 → Nat → List Nat} (hy : ∀ c i, AgreeAt y c i (D c i r)) :
    Fire (ownNext K (orderBy D) calls r) x ins outs y ∧ ∀ c i, AgreeAt x c i (D c i r) := by
  refine ⟨step_fire hC h fun t m i sd got j p hs hs' => ?_, fun c i => ?_⟩
  · have hc : y.calls = x.calls := by cases h <;> simp_all
    have := (hy x.calls i).2 t m sd _ hs' hc
    unfold orderBy
    rw [decide_eq_true_eq]
    rw [List.map_append] at this
    obtain ⟨u, hu⟩ := this
    rw [← hu]
    simp
  · obtain ⟨h1, h2⟩ := hy c i
    cases h with
    | start hs hp => exact ⟨h1, fun t m sd got hs' _ => by rw [hs] at hs'; cases hs'⟩
    | stop hs hp => exact ⟨h1, fun t m sd got hs' _ => by rw [hs] at hs'; cases hs'⟩
    | send hs hp => exact ⟨h1, fun t m sd got hs' _ => by rw [hs] at hs'; cases hs'⟩
    | work hs hp => exact ⟨h1, fun t m sd got hs' _ => by rw [hs] at hs'; cases hs'⟩
    | recv p hs hsh hl hj =>
      refine ⟨h1, fun t m sd got hs' hc => ?_⟩
      rw [hs] at hs'
      cases hs'
      have := h2 _ _ _ _ rfl hc
      rw [List.map_append] at this
      exact (List.prefix_append _ _).trans this
    | done hs hsh hl hm =>
      refine ⟨fun e he => h1 e (by simp [he]), fun t m sd got hs' hc => ?_⟩
      rw [hs] at hs'
      cases hs'
      have := h1 _ (by simp; right; rfl) hc rfl
      rw [← this]

/-- A history is one with the orders that it has met. -/
theorem runs_ordered {us : Nat → υ} {D : Nat → Fin 4 → Nat → List Nat} : ∀ {k : Nat} {st : Net (Option (Nat × Bool × Fin 4)) (Packet α β) (OwnRank υ α β)},
    Net.Runs n (ownNext K anyOrder calls) k (ownStart us) st → (∀ r, r < n → ∀ c i, AgreeAt (st.loc r) c i (D c i r)) →
    Net.Runs n (ownNext K (orderBy D) calls) k (ownStart us) st
  | 0, st, h, _ => by
    obtain rfl := h.zero
    exact .refl _
  | k + 1, st, h, hD => by
    obtain ⟨b, h1, r, ins, outs, y, hr, hf, hp, rfl⟩ := h.last
    obtain ⟨C, hC, hs⟩ := fire_step hf
    have hy := hD r hr
    have e : (b.after r ins outs y).loc r = y := by simp [Net.after]
    rw [e] at hy
    obtain ⟨f1, f2⟩ := agree_step hC hs hy
    refine (runs_ordered h1 fun s hs => ?_).snoc ⟨r, ins, outs, y, hr, f1, hp, rfl⟩
    by_cases hsr : s = r
    · rw [hsr]; exact f2
    · have := hD s hs
      have e : (b.after r ins outs y).loc s = b.loc s := by simp [Net.after, hsr]
      rw [e] at this
      exact this

/-! ## Orders exist -/

/-- The numbers of the reshapes that remain. -/
def reshapeIds : List Instr → List (Fin 4)
  | [] => []
  | .reshape i _ _ :: t => i :: reshapeIds t
  | _ :: t => reshapeIds t

def Spot.ids : Spot α β → List (Fin 4)
  | .idle => []
  | .busy t _ => reshapeIds t
  | .wait t _ i _ _ => i :: reshapeIds t

/-- Each reshape occurs once in the operations of a rank. -/
theorem program_ids : ∀ (mode : Mode) (P : Pattern) (l : List Instr), program mode P = .ok l → (reshapeIds l).Nodup := by
  have key : ∀ mode ∈ [Mode.same, .r2c, .c2r], ∀ a b c d e f g h : Bool, (match program mode ⟨a, b, c, d, e, f, g, h⟩ with
      | .ok l => decide (reshapeIds l).Nodup
      | .error _ => true) = true := by decide +kernel
  intro mode P l h
  obtain ⟨a, b, c, d, e, f, g, i⟩ := P
  have := key mode (by cases mode <;> simp) a b c d e f g i
  rw [h] at this
  exact of_decide_eq_true this

/-- `L` is a possible order of a reshape. -/
def ValidAt (calls : List (OwnCall υ α β)) (r c : Nat) (i : Fin 4) (L : List Nat) : Prop :=
  ∀ (C : OwnCall υ α β) d o, calls[c]? = some C → shaperAt (C.fft.shapers C.fwd) r i = some (.p2p d o) → L.Perm (List.range (C.recvs (.p2p d o)).length)

/-- What is known about the past of a rank. -/
structure Kept (calls : List (OwnCall υ α β)) (r : Nat) (x : OwnRank υ α β) : Prop where
  before : ∀ e ∈ x.past, e.1 ≤ x.calls
  now : ∀ e ∈ x.past, e.1 = x.calls → x.spot ≠ .idle ∧ e.2.1 ∉ x.spot.ids
  ids : x.spot.ids.Nodup
  keys : (x.past.map fun e => (e.1, e.2.1)).Nodup
  valid : ∀ e ∈ x.past, ValidAt calls r e.1 e.2.1 e.2.2
  got : ∀ t m i sd got, x.spot = .wait t m i sd got → ∀ C d o, calls[x.calls]? = some C → shaperAt (C.fft.shapers C.fwd) r i = some (.p2p d o) →
    (got.map (·.1)).Nodup ∧ ∀ j ∈ got.map (·.1), j < (C.recvs (.p2p d o)).length

theorem kept_start (u : υ) : Kept calls r (⟨0, u, .idle, []⟩ : OwnRank υ α β) where
  before := by simp
  now := by simp
  ids := by simp [Spot.ids]
  keys := by simp
  valid := by simp
  got := fun t m i sd got h => by cases h

theorem perm_range_of_nodup {l : List Nat} {k : Nat} (hn : l.Nodup) (hb : ∀ j ∈ l, j < k) (hk : k ≤ l.length) : l.Perm (List.range k) := by
  have hsub : l ⊆ List.range k := fun j hj => List.mem_range.2 (hb j hj)
  exact (hn.subperm hsub).perm_of_length_le (by simpa using hk)

theorem kept_step {x y : OwnRank υ α β} {C : OwnCall υ α β} {ins outs : Option (Nat × Bool × Fin 4) → Nat → List (Packet α β)} (hC : calls[x.calls]? = some C)
    (h : OwnStep K calls r x C ins outs y) (hx : Kept calls r x) : Kept calls r y := by
  obtain ⟨h1, h2, h3, h4, h5, h6⟩ := hx
  cases h with
  | start hs hp =>
    refine ⟨h1, fun e he hc => ?_, program_ids _ _ _ hp, h4, h5, fun t m i sd got h => by cases h⟩
    exact absurd hs (h2 e he hc).1
  | stop hs hu =>
    refine ⟨fun e he => Nat.le_succ_of_le (h1 e he), fun e he hc => ?_, by simp [Spot.ids], h4, h5, fun t m i sd got h => by cases h⟩
    have := h1 e he
    dsimp only at hc
    omega
  | @send i s d t m sh msgs hs hsh hm =>
    rw [hs] at h2 h3
    refine ⟨h1, fun e he hc => ⟨by simp, (h2 e he hc).2⟩, h3, h4, h5, fun t m i sd got h => ?_⟩
    cases h
    intros
    simp
  | @work a t m m' hs hn hm =>
    have e : reshapeIds (a :: t) = reshapeIds t := by
      cases a with
      | reshape i s d => exact absurd rfl (hn i s d)
      | copy k s d => rfl
      | batch l => rfl
    rw [hs] at h2 h3
    simp only [Spot.ids, e] at h2 h3
    exact ⟨h1, fun e he hc => ⟨by simp, (h2 e he hc).2⟩, h3, h4, h5, fun t m i sd got h => by cases h⟩
  | @recv t m i sd got sh j p hs hsh hl hj =>
    rw [hs] at h2 h3
    refine ⟨h1, fun e he hc => ⟨by simp, (h2 e he hc).2⟩, h3, h4, h5, fun t' m' i' sd' got' h C' d o hC' hsh' => ?_⟩
    cases h
    obtain rfl := Option.some.inj (hC.symm.trans hC')
    obtain rfl := Option.some.inj (hsh.symm.trans hsh')
    obtain ⟨g1, g2⟩ := h6 _ _ _ _ _ hs C d o hC hsh
    unfold awaited at hj
    simp only [Bool.and_true, List.mem_filter, List.mem_range, decide_eq_true_eq] at hj
    rw [List.map_append]
    refine ⟨?_, fun k hk => ?_⟩
    · rw [List.nodup_append]
      exact ⟨g1, by simp, fun a ha b hb hab => hj.2 (by
        simp only [List.map_cons, List.map_nil, List.mem_singleton] at hb
        rw [← hb, ← hab]; exact ha)⟩
    · rcases List.mem_append.1 hk with hk | hk
      · exact g2 k hk
      · simp only [List.map_cons, List.map_nil, List.mem_singleton] at hk
        rw [hk]; exact hj.1
  | @done t m m' i sd got sh hs hsh hl hm =>
    rw [hs] at h2 h3
    simp only [Spot.ids, List.nodup_cons] at h2 h3
    refine ⟨fun e he => ?_, fun e he hc => ⟨by simp, ?_⟩, h3.2, ?_, fun e he => ?_, fun t m i sd got h => by cases h⟩
    · rcases List.mem_append.1 he with he | he
      · exact h1 e he
      · rw [List.mem_singleton.1 he]
    · rcases List.mem_append.1 he with he | he
      · exact fun hh => (h2 e he hc).2 (List.mem_cons_of_mem _ hh)
      · rw [List.mem_singleton.1 he]
        exact h3.1
    · rw [List.map_append, List.nodup_append]
      refine ⟨h4, by simp, fun a ha b hb hab => ?_⟩
      simp only [List.map_cons, List.map_nil, List.mem_singleton] at hb
      rw [List.mem_map] at ha
      obtain ⟨e, he, rfl⟩ := ha
      rw [hb, Prod.mk.injEq] at hab
      exact (h2 e he hab.1).2 (by rw [hab.2]; simp)
    · rcases List.mem_append.1 he with he | he
      · exact h5 e he
      · rw [List.mem_singleton.1 he]
        intro C' d o hC' hsh'
        obtain rfl := Option.some.inj (hC.symm.trans hC')
        obtain rfl := Option.some.inj (hsh.symm.trans hsh')
        obtain ⟨g1, g2⟩ := h6 _ _ _ _ _ hs C d o hC hsh
        exact perm_range_of_nodup g1 g2 (by rw [List.length_map]; omega)

/-- A rank's past and present are part of a possible order. -/
theorem kept_order {x : OwnRank υ α β} (hx : Kept calls r x) (c : Nat) (i : Fin 4) : ∃ L, ValidAt calls r c i L ∧ AgreeAt x c i L := by
  by_cases hp : ∃ e ∈ x.past, e.1 = c ∧ e.2.1 = i
  · obtain ⟨e, he, rfl, rfl⟩ := hp
    refine ⟨e.2.2, hx.valid e he, fun e' he' h1 h2 => ?_, fun t m sd got hs hc => ?_⟩
    · have := List.inj_on_of_nodup_map hx.keys he' he (by rw [h1, h2])
      rw [this]
    · have := (hx.now e he hc.symm).2
      rw [hs] at this
      simp [Spot.ids] at this
  · have hno : ∀ e ∈ x.past, e.1 = c → e.2.1 = i → ∀ L : List Nat, e.2.2 = L := fun e he h1 h2 => absurd ⟨e, he, h1, h2⟩ hp
    by_cases hw : ∃ t m sd got, x.spot = .wait t m i sd got ∧ x.calls = c
    · obtain ⟨t, m, sd, got, hs, rfl⟩ := hw
      have agree : ∀ L, got.map (·.1) <+: L → AgreeAt x x.calls i L := fun L hL => by
        refine ⟨fun e he h1 h2 => hno e he h1 h2 L, fun t' m' sd' got' hs' _ => ?_⟩
        rw [hs] at hs'
        cases hs'
        exact hL
      by_cases hv : ∃ C d o, calls[x.calls]? = some C ∧ shaperAt (C.fft.shapers C.fwd) r i = some (.p2p d o)
      · obtain ⟨C, d, o, hC, hsh⟩ := hv
        obtain ⟨g1, g2⟩ := hx.got _ _ _ _ _ hs C d o hC hsh
        refine ⟨got.map (·.1) ++ (List.range (C.recvs (.p2p d o)).length).filter fun j => decide (j ∉ got.map (·.1)), ?_, agree _ (List.prefix_append _ _)⟩
        intro C' d' o' hC' hsh'
        obtain rfl := Option.some.inj (hC.symm.trans hC')
        obtain ⟨rfl, rfl⟩ := Shaper.p2p.inj (Option.some.inj (hsh.symm.trans hsh'))
        rw [List.perm_ext_iff_of_nodup ?_ List.nodup_range]
        · intro j
          rw [List.mem_append, List.mem_filter, decide_eq_true_eq, List.mem_range]
          constructor
          · rintro (h | h)
            · exact g2 j h
            · exact h.1
          · intro h
            by_cases hj : j ∈ got.map (·.1)
            · exact .inl hj
            · exact .inr ⟨h, hj⟩
        · rw [List.nodup_append]
          refine ⟨g1, List.nodup_range.filter _, fun a ha b hb hab => ?_⟩
          rw [List.mem_filter, decide_eq_true_eq] at hb
          exact hb.2 (hab ▸ ha)
      · exact ⟨got.map (·.1), fun C d o hC hsh => absurd ⟨C, d, o, hC, hsh⟩ hv, agree _ (List.prefix_refl _)⟩
    · have agree : ∀ L, AgreeAt x c i L := fun L => ⟨fun e he h1 h2 => hno e he h1 h2 L, fun t m sd got hs hc => absurd ⟨t, m, sd, got, hs, hc⟩ hw⟩
      by_cases hv : ∃ C d o, calls[c]? = some C ∧ shaperAt (C.fft.shapers C.fwd) r i = some (.p2p d o)
      · obtain ⟨C, d, o, hC, hsh⟩ := hv
        refine ⟨List.range (C.recvs (.p2p d o)).length, fun C' d' o' hC' hsh' => ?_, agree _⟩
        obtain rfl := Option.some.inj (hC.symm.trans hC')
        obtain ⟨rfl, rfl⟩ := Shaper.p2p.inj (Option.some.inj (hsh.symm.trans hsh'))
        exact .refl _
      · exact ⟨[], fun C d o hC hsh => absurd ⟨C, d, o, hC, hsh⟩ hv, agree _⟩

theorem runs_kept {us : Nat → υ} : ∀ {k : Nat} {st : Net (Option (Nat × Bool × Fin 4)) (Packet α β) (OwnRank υ α β)},
    Net.Runs n (ownNext K anyOrder calls) k (ownStart us) st → ∀ r, Kept calls r (st.loc r)
  | 0, st, h, r => by
    obtain rfl := h.zero
    exact kept_start _
  | k + 1, st, h, s => by
    obtain ⟨b, h1, r, ins, outs, y, hr, hf, hp, rfl⟩ := h.last
    obtain ⟨C, hC, hs⟩ := fire_step hf
    by_cases hsr : s = r
    · subst hsr
      have e : (b.after s ins outs y).loc s = y := by simp [Net.after]
      rw [e]
      exact kept_step hC hs (runs_kept h1 s)
    · have e : (b.after r ins outs y).loc s = b.loc s := by simp [Net.after, hsr]
      rw [e]
      exact runs_kept h1 s

end
end Verif
