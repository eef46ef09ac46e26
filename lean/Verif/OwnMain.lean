import Verif.OwnFree
import Mathlib.Algebra.BigOperators.Group.Finset.Basic

/-!
# Ranks at their own speed compute what all the ranks compute together
-/

namespace Verif

section
variable {α β υ : Type} {K : Kernel α β} {calls : List (OwnCall υ α β)} {r n : Nat}

/-! ## The number of steps -/

def OwnCall.weight (C : OwnCall υ α β) (r : Nat) : Instr → Nat
  | .reshape i _ _ => 2 + match shaperAt (C.fft.shapers C.fwd) r i with
    | some sh => (C.recvs sh).length
    | none => 0
  | _ => 1

/-- The number of steps of rank `r` in the call. -/
def OwnCall.steps (C : OwnCall υ α β) (r : Nat) : Nat :=
  match program C.mode (patternOf (shaperAt (C.fft.shapers C.fwd) r) (C.env r).execs (C.inplace r)) with
  | .ok l => 2 + (l.map (C.weight r)).sum
  | .error _ => 0

def OwnCall.left (C : OwnCall υ α β) (r : Nat) : Spot α β → Nat
  | .idle => C.steps r
  | .busy t _ => 1 + (t.map (C.weight r)).sum
  | .wait t _ i _ got => 2 + (t.map (C.weight r)).sum + ((match shaperAt (C.fft.shapers C.fwd) r i with
    | some sh => (C.recvs sh).length
    | none => 0) - got.length)

/-- The number of steps that remain for rank `r`. -/
def OwnRank.left (calls : List (OwnCall υ α β)) (r : Nat) (x : OwnRank υ α β) : Nat :=
  match calls[x.calls]? with
  | none => 0
  | some C => C.left r x.spot + ((calls.drop (x.calls + 1)).map fun C => C.steps r).sum

theorem left_idle (calls : List (OwnCall υ α β)) (r c : Nat) (u : υ) (past : List (Nat × Fin 4 × List Nat)) :
    OwnRank.left calls r (⟨c, u, .idle, past⟩ : OwnRank υ α β) = ((calls.drop c).map fun C => C.steps r).sum := by
  unfold OwnRank.left
  dsimp only
  cases h : calls[c]? with
  | none => rw [List.drop_eq_nil_of_le (List.getElem?_eq_none_iff.1 h)]; rfl
  | some C =>
    obtain ⟨h1, h2⟩ := List.getElem?_eq_some_iff.1 h
    rw [List.drop_eq_getElem_cons h1, h2]
    simp [OwnCall.left]

theorem step_left {x y : OwnRank υ α β} {C : OwnCall υ α β} {ins outs : Option (Nat × Bool × Fin 4) → Nat → List (Packet α β)} (hC : calls[x.calls]? = some C)
    (h : OwnStep K calls r x C ins outs y) : OwnRank.left calls r x = OwnRank.left calls r y + 1 := by
  have e : OwnRank.left calls r x = C.left r x.spot + ((calls.drop (x.calls + 1)).map fun C => C.steps r).sum := by
    unfold OwnRank.left; rw [hC]
  have e' : ∀ sp past, OwnRank.left calls r (⟨x.calls, x.user, sp, past⟩ : OwnRank υ α β) =
      C.left r sp + ((calls.drop (x.calls + 1)).map fun C => C.steps r).sum := by
    intro sp past
    unfold OwnRank.left; rw [hC]
  cases h with
  | start hs hp => 
    rw [e, e', hs]
    simp only [OwnCall.left, OwnCall.steps, hp]
    omega
  | stop hs hu =>
    rw [e, left_idle, hs]
    simp only [OwnCall.left, List.map_nil, List.sum_nil]
    omega
  | send hs hsh hm =>
    rw [e, e', hs]
    simp only [OwnCall.left, OwnCall.weight, List.map_cons, List.sum_cons, hsh, List.length_nil]
    omega
  | @work a t m m' hs hn hm =>
    rw [e, e', hs]
    have : C.weight r a = 1 := by
      cases a with
      | reshape i s d => exact absurd rfl (hn i s d)
      | copy k s d => rfl
      | batch l => rfl
    simp only [OwnCall.left, List.map_cons, List.sum_cons, this]
    omega
  | recv p hs hsh hl hj =>
    rw [e, e', hs]
    simp only [OwnCall.left, hsh, List.length_append, List.length_singleton]
    omega
  | done hs hsh hl hm =>
    rw [e, e', hs]
    simp only [OwnCall.left, hsh]
    omega

/-- Each step of a history brings it one step nearer to the end. -/
theorem runs_left {k : Nat} {a b : Net (Option (Nat × Bool × Fin 4)) (Packet α β) (OwnRank υ α β)} (h : Net.Runs n (ownNext K anyOrder calls) k a b) :
    ∑ r ∈ Finset.range n, OwnRank.left calls r (a.loc r) = k + ∑ r ∈ Finset.range n, OwnRank.left calls r (b.loc r) := by
  induction h with
  | refl => simp
  | @step k a b c m t ih =>
    obtain ⟨r, ins, outs, y, hr, hf, hp, rfl⟩ := m
    obtain ⟨C, hC, hs⟩ := fire_step hf
    have hl := step_left hC hs
    have e1 : ∑ s ∈ Finset.range n, OwnRank.left calls s (a.loc s) = 1 + ∑ s ∈ Finset.range n, OwnRank.left calls s ((a.after r ins outs y).loc s) := by
      rw [← Finset.add_sum_erase _ _ (Finset.mem_range.2 hr), ← Finset.add_sum_erase _ (fun s => OwnRank.left calls s ((a.after r ins outs y).loc s)) (Finset.mem_range.2 hr)]
      have e2 : (a.after r ins outs y).loc r = y := by simp [Net.after]
      have e3 : ∑ s ∈ (Finset.range n).erase r, OwnRank.left calls s ((a.after r ins outs y).loc s) = ∑ s ∈ (Finset.range n).erase r, OwnRank.left calls s (a.loc s) :=
        Finset.sum_congr rfl fun s hs => by
          have : s ≠ r := (Finset.mem_erase.1 hs).1
          simp [Net.after, this]
      rw [e2, e3, hl]
      omega
    rw [e1, ih]
    omega

/-! ## No other outcome -/

/-- Whether a rank fails does not depend on the orders. -/
theorem ownNext_fail {allow allow' : Nat → Fin 4 → Nat → List Nat → Nat → Bool} {x : OwnRank υ α β} (h : ownNext K allow calls r x = .fail) :
    ownNext K allow' calls r x = .fail := by
  unfold ownNext at h ⊢
  split at h
  · cases h
  · split at h
    · split at h
      · cases h
      · rfl
    · split at h
      · cases h
      · rfl
    · split at h
      · rfl
      · split at h
        · cases h
        · rfl
    · split at h
      · cases h
      · rfl
    · split at h
      · rfl
      · dsimp only at h ⊢
        split at h
        · cases h
        · rename_i hl
          rw [if_neg hl]
          split at h
          · cases h
          · rfl

theorem awaited_any {allow : List Nat → Nat → Bool} {recvs : List Msg} {got : List Nat} {sh : Shaper} {j : Nat} (h : j ∈ awaited allow recvs got sh) :
    j ∈ awaited (fun _ _ => true) recvs got sh := by
  cases sh with
  | p2p d o =>
    unfold awaited at h ⊢
    simp only [List.mem_filter, Bool.and_eq_true] at h ⊢
    exact ⟨h.1, h.2.1, trivial⟩
  | alltoall d o => exact h
  | alltoallv d o => exact h
  | transpose p => exact h

/-- A step with given orders is a step. -/
theorem fire_any {allow : Nat → Fin 4 → Nat → List Nat → Nat → Bool} {x y : OwnRank υ α β} {ins outs : Option (Nat × Bool × Fin 4) → Nat → List (Packet α β)}
    (h : Fire (ownNext K allow calls r) x ins outs y) : Fire (ownNext K anyOrder calls r) x ins outs y := by
  have key : ∀ t, ownNext K allow calls r x = t → (∀ key alts, t ≠ .recv key alts) → ownNext K anyOrder calls r x = t := by
    intro t ht hn
    unfold ownNext at ht ⊢
    split at ht
    · exact ht
    · split at ht
      · exact ht
      · exact ht
      · exact ht
      · exact ht
      · split at ht
        · exact ht
        · dsimp only at ht ⊢
          split at ht
          · exact absurd ht.symm (hn _ _)
          · rename_i hl
            rw [if_neg hl]
            exact ht
  cases h with
  | work h => exact .work (key _ h (by simp))
  | send h => exact .send (key _ h (by simp))
  | @recv ky alts src f m h hm =>
    unfold ownNext at h
    split at h
    · cases h
    · rename_i C hC
      split at h
      · split at h <;> cases h
      · split at h <;> cases h
      · split at h
        · cases h
        · split at h <;> cases h
      · split at h <;> cases h
      · rename_i t m' i sd got hs
        split at h
        · cases h
        · rename_i sh hsh
          dsimp only at h
          split at h
          · rename_i hl
            cases h
            rw [List.mem_map] at hm
            obtain ⟨j, hj, hjj⟩ := hm
            cases hjj
            exact step_fire (allow := anyOrder) hC (.recv m hs hsh hl (awaited_any hj)) (fun _ _ _ _ _ _ _ _ _ => rfl)
          · split at h <;> cases h

/-- If the program of all the ranks together has no failures and a result with the property `Q`, whatever the orders of the messages, then
ranks that run at their own speed never fail and never wait in vain, and in the end they have a result with the property `Q`. -/
theorem own_speed {us : Nat → υ} {Q : List υ → Prop} (hS : ∀ (C : OwnCall υ α β), C ∈ calls → C.Sound n)
    (h : ∀ D, (∀ c (C : OwnCall υ α β), calls[c]? = some C → C.Orders (D c)) → ∃ us', allTogether K (withOrders D calls) ((List.range n).map us) = .ok us' ∧ Q us')
    {k : Nat} {st : Net (Option (Nat × Bool × Fin 4)) (Packet α β) (OwnRank υ α β)} (hr : Net.Runs n (ownNext K anyOrder calls) k (ownStart us) st) :
    k ≤ ∑ r ∈ Finset.range n, (calls.map fun C => C.steps r).sum ∧
    (∀ r, r < n → ownNext K anyOrder calls r (st.loc r) ≠ .fail) ∧
    ((∃ st', Net.Move n (ownNext K anyOrder calls) st st') ∨
      ((∀ r, r < n → (st.loc r).calls = calls.length) ∧ (∀ key s d, st.chan key s d = []) ∧ Q ((List.range n).map fun r => (st.loc r).user))) := by
  have hkept := runs_kept hr
  have hex : ∀ c i r, ∃ L, ValidAt calls r c i L ∧ AgreeAt (st.loc r) c i L := fun c i r => kept_order (hkept r) c i
  choose D hv ha using hex
  have hD : ∀ c (C : OwnCall υ α β), calls[c]? = some C → C.Orders (D c) := fun c C hC i r d o hsh => hv c i r C d o hC hsh
  obtain ⟨us', h1, h2⟩ := h D hD
  obtain ⟨l, j, b, r1, r2, r3, r4⟩ := together_runs (K := K) (fun c C hC => ⟨hS C (List.mem_of_getElem? hC), hD c C hC⟩) us h1
  obtain ⟨i, -, r5⟩ := r1.confluent (fun r => orderBy_single D calls r) r2 (runs_ordered hr fun r _ c i => ha c i r)
  refine ⟨?_, fun r hr hf => ?_, ?_⟩
  · have := runs_left hr
    have e : ∀ r, OwnRank.left calls r ((ownStart us : Net (Option (Nat × Bool × Fin 4)) (Packet α β) (OwnRank υ α β)).loc r) = (calls.map fun C => C.steps r).sum :=
      fun r => by rw [ownStart, left_idle, List.drop_zero]
    rw [Finset.sum_congr rfl fun r _ => e r] at this
    omega
  · have hf := ownNext_fail (allow' := orderBy D) hf
    have := r5.failed hf
    have hb := r2 r hr
    rw [this, hf] at hb
    cases hb
  · cases r5 with
    | step m t =>
      left
      obtain ⟨r, ins, outs, y, hr, hf, hp, rfl⟩ := m
      exact ⟨_, r, ins, outs, y, hr, fire_any hf, hp, rfl⟩
    | refl =>
      right
      have hu : ∀ r, r < n → us'[r]? = some (st.loc r).user ∧ (st.loc r).calls = calls.length := fun r hr => by
        have hh : us'[r]? = some us'[r] := List.getElem?_eq_getElem (by omega)
        obtain ⟨g1, g2⟩ := r3 r _ hh
        rw [g2]
        exact ⟨hh, g1⟩
      refine ⟨fun r hr => (hu r hr).2, r4, ?_⟩
      have e : ((List.range n).map fun r => (st.loc r).user) = us' := by
        refine List.ext_getElem? fun r => ?_
        rw [List.getElem?_map]
        by_cases hr : r < n
        · rw [List.getElem?_range hr, (hu r hr).1]; rfl
        · rw [List.getElem?_eq_none (by simpa using hr), List.getElem?_eq_none (by omega)]; rfl
      rw [e]
      exact h2

end
end Verif
