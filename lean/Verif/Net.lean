import Mathlib.Data.List.Basic
import Mathlib.Tactic.SplitIfs
import Mathlib.Tactic.Common

/-!
# Ranks that run at their own speed and exchange messages

A rank is an automaton: its local state tells what it does next.  Messages from one rank to another on one communicator are received in
the order in which they were sent.  A step of a rank does not depend on the others except for the messages that have arrived.
-/

namespace Verif

/-- What a rank does next: it is at the end; undefined behaviour; it works on its own memory; it sends messages on the communicator
`key`; it waits for one of several messages, given by their sources, and goes on with the one that has arrived. -/
inductive Todo (κ μ ρ : Type) where
  | stop
  | fail
  | work (x : ρ)
  | send (key : κ) (msgs : List (Nat × μ)) (x : ρ)
  | recv (key : κ) (alts : List (Nat × (μ → ρ)))

/-- The local states and the messages under way: communicator, source, destination. -/
structure Net (κ μ ρ : Type) where
  loc : Nat → ρ
  chan : κ → Nat → Nat → List μ

section
variable {κ μ ρ : Type} [DecidableEq κ]

/-- No messages. -/
def silence : κ → Nat → List μ := fun _ _ => []

/-- The messages for each destination. -/
def outgoing (key : κ) (msgs : List (Nat × μ)) : κ → Nat → List μ := fun k d =>
  if k = key then (msgs.filter fun x => decide (x.1 = d)).map (·.2) else []

/-- One message from `src`. -/
def incoming (key : κ) (src : Nat) (m : μ) : κ → Nat → List μ := fun k s => if k = key ∧ s = src then [m] else []

/-- One step of a rank in the local state `x`: the messages that it takes (per communicator and source), the messages that it sends (per
communicator and destination), the new local state. -/
inductive Fire (next : ρ → Todo κ μ ρ) (x : ρ) : (κ → Nat → List μ) → (κ → Nat → List μ) → ρ → Prop where
  | work {x' : ρ} : next x = .work x' → Fire next x silence silence x'
  | send {key : κ} {msgs : List (Nat × μ)} {x' : ρ} : next x = .send key msgs x' → Fire next x silence (outgoing key msgs) x'
  | recv {key : κ} {alts : List (Nat × (μ → ρ))} {src : Nat} {f : μ → ρ} (m : μ) : next x = .recv key alts → (src, f) ∈ alts →
      Fire next x (incoming key src m) silence (f m)

/-- The state after a step of rank `r`: it has taken messages from the fronts of its channels and added messages at the ends. -/
def Net.after (st : Net κ μ ρ) (r : Nat) (ins outs : κ → Nat → List μ) (x : ρ) : Net κ μ ρ :=
  ⟨fun i => if i = r then x else st.loc i,
    fun k s d => (if d = r then (st.chan k s d).drop (ins k s).length else st.chan k s d) ++ if s = r then outs k d else []⟩

/-- One of the `n` ranks does a step; the messages that it takes have arrived. -/
def Net.Move (n : Nat) (next : Nat → ρ → Todo κ μ ρ) (st st' : Net κ μ ρ) : Prop :=
  ∃ r ins outs x, r < n ∧ Fire (next r) (st.loc r) ins outs x ∧ (∀ k s, ins k s <+: st.chan k s r) ∧ st' = st.after r ins outs x

/-- A history of `k` steps. -/
inductive Net.Runs (n : Nat) (next : Nat → ρ → Todo κ μ ρ) : Nat → Net κ μ ρ → Net κ μ ρ → Prop where
  | refl (st : Net κ μ ρ) : Net.Runs n next 0 st st
  | step {k : Nat} {a b c : Net κ μ ρ} : Net.Move n next a b → Net.Runs n next k b c → Net.Runs n next (k + 1) a c

/-- All the ranks are at the end. -/
def Net.Stopped (n : Nat) (next : Nat → ρ → Todo κ μ ρ) (st : Net κ μ ρ) : Prop := ∀ r, r < n → next r (st.loc r) = .stop

variable {n : Nat} {next : Nat → ρ → Todo κ μ ρ}

theorem Net.Runs.trans {j k : Nat} {a b c : Net κ μ ρ} (h : Net.Runs n next j a b) (h' : Net.Runs n next k b c) : Net.Runs n next (j + k) a c := by
  induction h with
  | refl => simpa using h'
  | step hm _ ih =>
    have := Net.Runs.step hm (ih h')
    rwa [show ∀ a b : Nat, a + b + 1 = a + 1 + b by omega] at this

theorem Net.Runs.snoc {k : Nat} {a b c : Net κ μ ρ} (h : Net.Runs n next k a b) (h' : Net.Move n next b c) : Net.Runs n next (k + 1) a c :=
  h.trans (.step h' (.refl _))

/-! ## Confluence -/

/-- No choice between messages. -/
def Single (next : ρ → Todo κ μ ρ) : Prop := ∀ x key alts, next x = .recv key alts → alts.length ≤ 1

theorem Fire.unique {nx : ρ → Todo κ μ ρ} (hs : Single nx) {x : ρ} {i o i' o' : κ → Nat → List μ} {y y' : ρ} (h : Fire nx x i o y) (h' : Fire nx x i' o' y')
    {ch : κ → Nat → List μ} (hi : ∀ k s, i k s <+: ch k s) (hi' : ∀ k s, i' k s <+: ch k s) : i = i' ∧ o = o' ∧ y = y' := by
  cases h with
  | work e =>
    cases h' with
    | work e' => rw [e] at e'; cases e'; exact ⟨rfl, rfl, rfl⟩
    | send e' => rw [e] at e'; cases e'
    | recv m' e' => rw [e] at e'; cases e'
  | send e =>
    cases h' with
    | work e' => rw [e] at e'; cases e'
    | send e' => rw [e] at e'; cases e'; exact ⟨rfl, rfl, rfl⟩
    | recv m' e' => rw [e] at e'; cases e'
  | @recv key alts src f m e hm =>
    cases h' with
    | work e' => rw [e] at e'; cases e'
    | send e' => rw [e] at e'; cases e'
    | @recv key' alts' src' f' m' e' hm' =>
      rw [e] at e'
      cases e'
      have hl := hs x key alts e
      match alts, hl, hm, hm' with
      | [a], _, hm, hm' =>
        simp only [List.mem_singleton] at hm hm'
        obtain rfl := hm
        cases hm'
        have h1 := hi key src
        have h2 := hi' key src
        simp only [incoming, and_self, if_true] at h1 h2
        obtain ⟨t1, e1⟩ := h1
        obtain ⟨t2, e2⟩ := h2
        rw [← e1] at e2
        simp only [List.cons_append, List.nil_append, List.cons.injEq] at e2
        obtain ⟨rfl, -⟩ := e2
        exact ⟨rfl, rfl, rfl⟩

theorem drop_append_of_prefix {l t u : List μ} (h : t <+: l) : (l ++ u).drop t.length = l.drop t.length ++ u := by
  rw [List.drop_append_of_le_length h.length_le]

/-- Steps of different ranks commute. -/
theorem Net.after_comm (st : Net κ μ ρ) {r r' : Nat} (hr : r ≠ r') {i o i' o' : κ → Nat → List μ} {y y' : ρ}
    (hi : ∀ k s, i k s <+: st.chan k s r) (hi' : ∀ k s, i' k s <+: st.chan k s r') :
    (st.after r i o y).after r' i' o' y' = (st.after r' i' o' y').after r i o y := by
  unfold Net.after
  congr 1
  · funext j
    dsimp only
    by_cases h1 : j = r
    · subst h1; rw [if_neg hr, if_pos rfl, if_pos rfl]
    · rw [if_neg h1, if_neg h1]
  · funext k s d
    dsimp only
    by_cases h1 : d = r
    · subst h1
      simp only [if_neg hr, if_true]
      by_cases h3 : s = r'
      · subst h3
        simp only [if_neg (Ne.symm hr), if_true, List.append_nil, drop_append_of_prefix (hi k s)]
      · simp only [if_neg h3, List.append_nil]
    · rw [if_neg h1, if_neg h1]
      by_cases h2 : d = r'
      · subst h2
        simp only [if_true]
        by_cases h3 : s = r
        · subst h3
          simp only [if_neg hr, if_true, List.append_nil, drop_append_of_prefix (hi' k s)]
        · simp only [if_neg h3, List.append_nil]
      · rw [if_neg h2, if_neg h2, List.append_assoc, List.append_assoc]
        by_cases h3 : s = r
        · subst h3; rw [if_neg hr]; simp
        · rw [if_neg h3]; simp

theorem Net.after_enabled (st : Net κ μ ρ) {r r' : Nat} (hr : r ≠ r') {i o i' : κ → Nat → List μ} {y : ρ} 
    (hi' : ∀ k s, i' k s <+: st.chan k s r') (k : κ) (s : Nat) : i' k s <+: (st.after r i o y).chan k s r' := by
  unfold Net.after
  dsimp only
  rw [if_neg (Ne.symm hr)]
  exact (hi' k s).trans (List.prefix_append _ _)

/-- Two steps from the same state: they are the same, or they can be done one after the other in either order. -/
theorem Net.Move.diamond (hs : ∀ r, Single (next r)) {a b c : Net κ μ ρ} (h : Net.Move n next a b) (h' : Net.Move n next a c) :
    b = c ∨ ∃ d, Net.Move n next b d ∧ Net.Move n next c d := by
  obtain ⟨r, i, o, y, hr, hf, hi, rfl⟩ := h
  obtain ⟨r', i', o', y', hr', hf', hi', rfl⟩ := h'
  by_cases e : r = r'
  · subst e
    obtain ⟨rfl, rfl, rfl⟩ := hf.unique (hs r) hf' hi hi'
    exact .inl rfl
  · refine .inr ⟨_, ⟨r', i', o', y', hr', ?_, a.after_enabled e hi', rfl⟩, r, i, o, y, hr, ?_, a.after_enabled (Ne.symm e) hi, a.after_comm e hi hi'⟩
    · simpa [Net.after, Ne.symm e] using hf'
    · simpa [Net.after, e] using hf

theorem Net.Stopped.no_move {a b : Net κ μ ρ} (h : a.Stopped n next) (hm : Net.Move n next a b) : False := by
  obtain ⟨r, i, o, y, hr, hf, -⟩ := hm
  have e := h r hr
  cases hf with
  | work e' => rw [e] at e'; cases e'
  | send e' => rw [e] at e'; cases e'
  | recv m e' => rw [e] at e'; cases e'

/-- If some history ends, then every step leads towards the same end. -/
theorem Net.Runs.move (hs : ∀ r, Single (next r)) {k : Nat} {a b : Net κ μ ρ} (h : Net.Runs n next k a b) (hb : b.Stopped n next) {c : Net κ μ ρ}
    (hm : Net.Move n next a c) : ∃ j, k = j + 1 ∧ Net.Runs n next j c b := by
  induction h generalizing c with
  | refl => exact (hb.no_move hm).elim
  | @step k a b' b hm' hr ih =>
    rcases hm'.diamond hs hm with rfl | ⟨d, h1, h2⟩
    · exact ⟨k, rfl, hr⟩
    · obtain ⟨j, rfl, h⟩ := ih hb h1
      exact ⟨j + 1, rfl, .step h2 h⟩

/-- If some history without choices ends, then every history can be continued to the same end, with the same number of steps. -/
theorem Net.Runs.confluent (hs : ∀ r, Single (next r)) {k : Nat} {a b : Net κ μ ρ} (h : Net.Runs n next k a b) (hb : b.Stopped n next) {j : Nat}
    {c : Net κ μ ρ} (h' : Net.Runs n next j a c) : ∃ i, k = j + i ∧ Net.Runs n next i c b := by
  induction h' generalizing k with
  | refl => exact ⟨k, by omega, h⟩
  | @step j a c' c hm _ ih =>
    obtain ⟨k', rfl, h1⟩ := h.move hs hb hm
    obtain ⟨i, rfl, h2⟩ := ih h1
    exact ⟨i, by omega, h2⟩

/-! ## Paths of one rank -/

/-- Several steps of one rank: the messages that it takes and sends. -/
inductive Path (next : ρ → Todo κ μ ρ) : ρ → (κ → Nat → List μ) → (κ → Nat → List μ) → ρ → Prop where
  | refl (x : ρ) : Path next x silence silence x
  | step {x y z : ρ} {i o i' o' : κ → Nat → List μ} : Fire next x i o y → Path next y i' o' z →
      Path next x (fun k s => i k s ++ i' k s) (fun k d => o k d ++ o' k d) z

theorem Path.cast {nx : ρ → Todo κ μ ρ} {x y : ρ} {i o i' o' : κ → Nat → List μ} (h : Path nx x i o y) (hi : ∀ k s, i k s = i' k s)
    (ho : ∀ k s, o k s = o' k s) : Path nx x i' o' y := by
  obtain rfl : i = i' := funext fun k => funext fun s => hi k s
  obtain rfl : o = o' := funext fun k => funext fun s => ho k s
  exact h

theorem Path.trans {nx : ρ → Todo κ μ ρ} {x y z : ρ} {i o i' o' : κ → Nat → List μ} (h : Path nx x i o y) (h' : Path nx y i' o' z) :
    Path nx x (fun k s => i k s ++ i' k s) (fun k d => o k d ++ o' k d) z := by
  induction h with
  | refl => exact h'.cast (fun _ _ => rfl) (fun _ _ => rfl)
  | step hf _ ih => exact (Path.step hf (ih h')).cast (fun _ _ => (List.append_assoc _ _ _).symm) (fun _ _ => (List.append_assoc _ _ _).symm)

theorem Path.one {nx : ρ → Todo κ μ ρ} {x y : ρ} {i o : κ → Nat → List μ} (h : Fire nx x i o y) : Path nx x i o y :=
  (Path.step h (.refl y)).cast (fun _ _ => List.append_nil _) (fun _ _ => List.append_nil _)

/-- Steps on the own memory. -/
theorem Path.trans_silent {nx : ρ → Todo κ μ ρ} {x y z : ρ} (h : Path nx x silence silence y) (h' : Path nx y silence silence z) :
    Path nx x silence silence z := (h.trans h').cast (fun _ _ => rfl) (fun _ _ => rfl)

theorem Net.after_after (st : Net κ μ ρ) (r : Nat) {i o i' o' : κ → Nat → List μ} {y z : ρ} (h : ∀ k s, i k s ++ i' k s <+: st.chan k s r) :
    (st.after r i o y).after r i' o' z = st.after r (fun k s => i k s ++ i' k s) (fun k d => o k d ++ o' k d) z := by
  unfold Net.after
  congr 1
  · funext j
    by_cases h1 : j = r <;> simp [h1]
  · funext k s d
    dsimp only
    by_cases h1 : d = r
    · subst h1
      rw [if_pos rfl, if_pos rfl, if_pos rfl, List.length_append]
      have hl := (h k s).length_le
      rw [List.length_append] at hl
      rw [List.drop_append_of_le_length (by rw [List.length_drop]; omega), List.drop_drop, List.append_assoc]
      by_cases h3 : s = d
      · simp [h3]
      · simp [h3]
    · rw [if_neg h1, if_neg h1, if_neg h1, List.append_assoc]
      by_cases h3 : s = r
      · simp [h3]
      · simp [h3]

/-- A path of one rank is a history if its messages have arrived. -/
theorem Path.runs {r : Nat} (hr : r < n) {x y : ρ} {i o : κ → Nat → List μ} (h : Path (next r) x i o y) {st : Net κ μ ρ} (hx : st.loc r = x)
    (hi : ∀ k s, i k s <+: st.chan k s r) : ∃ j, Net.Runs n next j st (st.after r i o y) := by
  induction h generalizing st with
  | refl =>
    refine ⟨0, ?_⟩
    have : st.after r silence silence (st.loc r) = st := by
      unfold Net.after
      cases st with
      | mk loc chan =>
        dsimp only
        congr 1
        · funext j; split
          · rename_i h; rw [h]
          · rfl
        · funext k s d; simp [silence]
    subst hx
    rw [this]
    exact .refl _
  | @step x y z i o i' o' hf hp ih =>
    have hi1 : ∀ k s, i k s <+: st.chan k s r := fun k s => (List.prefix_append _ _).trans (hi k s)
    have hm : Net.Move n next st (st.after r i o y) := ⟨r, i, o, y, hr, by rw [hx]; exact hf, hi1, rfl⟩
    obtain ⟨j, hj⟩ := ih (st := st.after r i o y) (by simp [Net.after]) (by
      intro k s
      unfold Net.after
      dsimp only
      rw [if_pos rfl]
      refine List.IsPrefix.trans ?_ (List.prefix_append _ _)
      obtain ⟨t, e⟩ := hi k s
      rw [← e, List.append_assoc, List.drop_left]
      exact List.prefix_append _ _)
    rw [st.after_after r hi] at hj
    exact ⟨j + 1, .step hm hj⟩

/-- All the ranks do a path, one after the other: the channels afterwards. -/
theorem sweep {x y : Nat → ρ} {i o : Nat → κ → Nat → List μ} (h : ∀ r, r < n → Path (next r) (x r) (i r) (o r) (y r)) {chan : κ → Nat → Nat → List μ}
    (hi : ∀ r, r < n → ∀ k s, i r k s <+: chan k s r) (m : Nat) (hm : m ≤ n) :
    ∃ j, Net.Runs n next j ⟨x, chan⟩ ⟨fun r => if r < m then y r else x r,
      fun k s d => (if d < m then (chan k s d).drop (i d k s).length else chan k s d) ++ if s < m then o s k d else []⟩ := by
  induction m with
  | zero => exact ⟨0, by simpa using Net.Runs.refl (n := n) (next := next) (⟨x, chan⟩ : Net κ μ ρ)⟩
  | succ m ih =>
    obtain ⟨j, hj⟩ := ih (by omega)
    obtain ⟨j', hj'⟩ := (h m (by omega)).runs (n := n) (by omega) (st := ⟨fun r => if r < m then y r else x r,
      fun k s d => (if d < m then (chan k s d).drop (i d k s).length else chan k s d) ++ if s < m then o s k d else []⟩) (by simp)
      (fun k s => by
        dsimp only
        rw [if_neg (by omega)]
        exact (hi m (by omega) k s).trans (List.prefix_append _ _))
    refine ⟨j + j', ?_⟩
    have := hj.trans hj'
    convert this using 1
    unfold Net.after
    congr 1
    · funext r
      dsimp only
      by_cases h1 : r = m
      · subst h1; simp
      · rw [if_neg h1]
        by_cases h2 : r < m
        · rw [if_pos h2, if_pos (by omega)]
        · rw [if_neg h2, if_neg (by omega)]
    · funext k s d
      dsimp only
      by_cases h1 : d = m
      · subst h1
        rw [if_pos (Nat.lt_succ_self d), if_pos rfl, if_neg (Nat.lt_irrefl d), drop_append_of_prefix (hi d (by omega) k s), List.append_assoc]
        congr 1
        by_cases h3 : s = d
        · subst h3; simp
        · by_cases h2 : s < d
          · rw [if_pos h2, if_pos (by omega), if_neg h3, List.append_nil]
          · rw [if_neg h2, if_neg (by omega), if_neg h3, List.append_nil]
      · rw [if_neg h1]
        have e : (if d < m + 1 then (chan k s d).drop (i d k s).length else chan k s d) =
            if d < m then (chan k s d).drop (i d k s).length else chan k s d := by
          by_cases h2 : d < m
          · rw [if_pos h2, if_pos (by omega)]
          · rw [if_neg h2, if_neg (by omega)]
        rw [e, List.append_assoc]
        congr 1
        by_cases h3 : s = m
        · subst h3; simp
        · by_cases h2 : s < m
          · rw [if_pos h2, if_pos (by omega), if_neg h3, List.append_nil]
          · rw [if_neg h2, if_neg (by omega), if_neg h3, List.append_nil]

end
end Verif
