import Verif.Reshape
import Verif.BoxLemmas
import Mathlib.Logic.Relation
import Mathlib.Data.List.Nodup
import Mathlib.Data.Finset.Card
import Mathlib.Data.Finset.Range

/-!
# Communication groups

`a2a_group` computes the connected component of its seeds.
-/

namespace Verif

/-- Two ranks exchange data in one direction or the other. -/
def Adj (bin bout : List Box) (i j : Nat) : Prop := touch bin bout i j = true ∨ touch bout bin i j = true

theorem touch_comm (a b : List Box) (i j : Nat) : touch a b i j = touch b a j i := by
  unfold touch
  cases a[i]? <;> cases b[j]? <;> simp [Box.collide_empty_comm]

theorem Adj.symm {bin bout : List Box} {i j : Nat} (h : Adj bin bout i j) : Adj bin bout j i := by
  unfold Adj at h ⊢
  rw [touch_comm bin bout j i, touch_comm bout bin j i]
  exact h.symm

theorem touch_lt {a b : List Box} {i j : Nat} (h : touch a b i j = true) : i < a.length ∧ j < b.length := by
  unfold touch at h
  split at h
  · rename_i ha hb
    exact ⟨(List.getElem?_eq_some_iff.1 ha).1, (List.getElem?_eq_some_iff.1 hb).1⟩
  · cases h

theorem touch_iff {a b : List Box} {i j : Nat} {x y : Box} (hx : a[i]? = some x) (hy : b[j]? = some y) :
    touch a b i j = true ↔ ∃ p : A3 Int, p ∈ x ∧ p ∈ y := by
  unfold touch
  rw [hx, hy]
  simp only [Bool.not_eq_eq_eq_not, Bool.not_true]
  rw [Box.empty_false_iff_mem]
  simp only [Box.mem_collide]

/-- Connected through exchanges. -/
abbrev Reach (bin bout : List Box) : Nat → Nat → Prop := Relation.ReflTransGen (Adj bin bout)

theorem Reach.symm {bin bout : List Box} {i j : Nat} (h : Reach bin bout i j) : Reach bin bout j i := by
  induction h with
  | refl => exact .refl
  | tail _ ha ih => exact .head ha.symm ih

/-- What each step of the search keeps. -/
structure GroupInv (bin bout : List Box) (n : Nat) (seeds r : List Nat) : Prop where
  nodup : r.Nodup
  lt : ∀ q ∈ r, q < n
  reach : ∀ q ∈ r, ∃ p ∈ seeds, Reach bin bout p q

theorem GroupInv.push {bin bout : List Box} {n : Nat} {seeds r : List Nat} (h : GroupInv bin bout n seeds r) {i j : Nat}
    (hi : i ∈ r) (hj : j < n) (hn : j ∉ r) (ha : Adj bin bout i j) : GroupInv bin bout n seeds (r ++ [j]) := by
  refine ⟨?_, ?_, ?_⟩
  · rw [List.nodup_append]
    refine ⟨h.nodup, by simp, ?_⟩
    intro a har b hb
    simp at hb; subst hb
    rintro rfl; exact hn har
  · intro q hq
    rcases List.mem_append.1 hq with hq | hq
    · exact h.lt q hq
    · simp at hq; omega
  · intro q hq
    rcases List.mem_append.1 hq with hq | hq
    · exact h.reach q hq
    · simp at hq; subst hq
      obtain ⟨p, hp, hr⟩ := h.reach i hi
      exact ⟨p, hp, hr.tail ha⟩

theorem a2aVisit_spec {bin bout : List Box} {n : Nat} {seeds r : List Nat} (h : GroupInv bin bout n seeds r) {i j : Nat}
    (hi : i ∈ r) (hj : j < n) : GroupInv bin bout n seeds (a2aVisit bin bout i r j) ∧
      (∃ x, a2aVisit bin bout i r j = r ++ x) ∧ (Adj bin bout i j → j ∈ a2aVisit bin bout i r j) := by
  unfold a2aVisit
  by_cases h1 : j ∉ r ∧ touch bin bout i j = true
  · have hp := h.push hi hj h1.1 (.inl h1.2)
    dsimp only
    rw [if_pos h1]
    rw [if_neg (by simp)]
    exact ⟨hp, ⟨_, rfl⟩, fun _ => by simp⟩
  · dsimp only
    rw [if_neg h1]
    by_cases h2 : j ∉ r ∧ touch bout bin i j = true
    · have hp := h.push hi hj h2.1 (.inr h2.2)
      rw [if_pos h2]
      exact ⟨hp, ⟨_, rfl⟩, fun _ => by simp⟩
    · rw [if_neg h2]
      refine ⟨h, ⟨[], by simp⟩, ?_⟩
      rintro (ha | ha)
      · by_contra hc; exact h1 ⟨hc, ha⟩
      · by_contra hc; exact h2 ⟨hc, ha⟩

theorem a2aVisits_spec {bin bout : List Box} {n : Nat} {seeds : List Nat} {i : Nat} :
    ∀ (js : List Nat) (r : List Nat), GroupInv bin bout n seeds r → i ∈ r → (∀ j ∈ js, j < n) →
      GroupInv bin bout n seeds (js.foldl (a2aVisit bin bout i) r) ∧
        (∃ x, js.foldl (a2aVisit bin bout i) r = r ++ x) ∧
        ∀ j ∈ js, Adj bin bout i j → j ∈ js.foldl (a2aVisit bin bout i) r
  | [], r, h, _, _ => ⟨h, ⟨[], by simp⟩, by simp⟩
  | j :: t, r, h, hi, hj => by
    obtain ⟨h1, ⟨x, hx⟩, h3⟩ := a2aVisit_spec h hi (hj j (by simp))
    obtain ⟨g1, ⟨y, hy⟩, g3⟩ := a2aVisits_spec (i := i) t (a2aVisit bin bout i r j) h1 (by rw [hx]; simp [hi])
      (fun q hq => hj q (by simp [hq]))
    refine ⟨g1, ⟨x ++ y, ?_⟩, ?_⟩
    · rw [List.foldl_cons, hy, hx, List.append_assoc]
    · intro q hq ha
      rcases List.mem_cons.1 hq with rfl | hq
      · rw [List.foldl_cons, hy]; simp [h3 ha]
      · exact g3 q hq ha

theorem a2aSweep_aux {bin bout : List Box} {n : Nat} {seeds : List Nat} :
    ∀ (is : List Nat) (r : List Nat), GroupInv bin bout n seeds r → (∀ i ∈ is, i ∈ r) →
      let out := is.foldl (fun r' iproc => (List.range n).foldl (a2aVisit bin bout iproc) r') r
      GroupInv bin bout n seeds out ∧ (∃ x, out = r ++ x) ∧ ∀ i ∈ is, ∀ j, j < n → Adj bin bout i j → j ∈ out
  | [], r, h, _ => ⟨h, ⟨[], by simp⟩, by simp⟩
  | i :: t, r, h, hi => by
    obtain ⟨h1, ⟨x, hx⟩, h3⟩ := a2aVisits_spec (i := i) (List.range n) r h (hi i (by simp)) (fun j hj => List.mem_range.1 hj)
    obtain ⟨g1, ⟨y, hy⟩, g3⟩ := a2aSweep_aux t ((List.range n).foldl (a2aVisit bin bout i) r) h1
      (fun q hq => by rw [hx]; simp [hi q (by simp [hq])])
    refine ⟨g1, ⟨x ++ y, ?_⟩, ?_⟩
    · rw [List.foldl_cons, hy, hx, List.append_assoc]
    · intro q hq j hj ha
      rcases List.mem_cons.1 hq with rfl | hq
      · rw [List.foldl_cons, hy]; simp [h3 j (List.mem_range.2 hj) ha]
      · exact g3 q hq j hj ha

theorem a2aSweep_spec {bin bout : List Box} {seeds r : List Nat} (h : GroupInv bin bout bin.length seeds r) :
    GroupInv bin bout bin.length seeds (a2aSweep bin bout r) ∧ (∃ x, a2aSweep bin bout r = r ++ x) ∧
      ∀ i ∈ r, ∀ j, j < bin.length → Adj bin bout i j → j ∈ a2aSweep bin bout r :=
  a2aSweep_aux r r h (fun _ h => h)

theorem GroupInv.length_le {bin bout : List Box} {n : Nat} {seeds r : List Nat} (h : GroupInv bin bout n seeds r) :
    r.length ≤ n := by
  have h1 : r.toFinset ⊆ Finset.range n := by
    intro q hq
    rw [List.mem_toFinset] at hq
    exact Finset.mem_range.2 (h.lt q hq)
  have h2 := Finset.card_le_card h1
  rwa [List.toFinset_card_of_nodup h.nodup, Finset.card_range] at h2

theorem a2aLoop_spec {bin bout : List Box} {seeds : List Nat} : ∀ (fuel : Nat) (r : List Nat),
    GroupInv bin bout bin.length seeds r → (∀ p ∈ seeds, p ∈ r) → bin.length < fuel + r.length →
      ∃ out, a2aLoop bin bout fuel r = .ok out ∧ GroupInv bin bout bin.length seeds out ∧ (∀ p ∈ seeds, p ∈ out) ∧
        ∀ i ∈ out, ∀ j, j < bin.length → Adj bin bout i j → j ∈ out
  | 0, r, h, _, hf => by have := h.length_le; omega
  | fuel + 1, r, h, hs, hf => by
    obtain ⟨h1, ⟨x, hx⟩, h3⟩ := a2aSweep_spec h
    unfold a2aLoop
    dsimp only
    by_cases hl : r.length = (a2aSweep bin bout r).length
    · rw [if_pos hl]
      have hxe : x = [] := by
        rw [hx, List.length_append] at hl
        exact List.length_eq_zero_iff.1 (by omega)
      rw [hxe, List.append_nil] at hx
      exact ⟨_, rfl, h1, by rw [hx]; exact hs, by rw [hx] at h3 ⊢; exact h3⟩
    · rw [if_neg hl]
      have : r.length < (a2aSweep bin bout r).length := by
        rw [hx, List.length_append] at hl ⊢; omega
      exact a2aLoop_spec fuel _ h1 (fun p hp => by rw [hx]; simp [hs p hp]) (by omega)

theorem a2aSeeds_aux (procs : List Nat) : ∀ r : List Nat, r.Nodup →
    (procs.foldl (fun r p => if p ∈ r then r else r ++ [p]) r).Nodup ∧
      ∀ q, q ∈ procs.foldl (fun r p => if p ∈ r then r else r ++ [p]) r ↔ q ∈ r ∨ q ∈ procs := by
  induction procs with
  | nil => intro r h; exact ⟨h, by simp⟩
  | cons p t ih =>
    intro r h
    rw [List.foldl_cons]
    by_cases hp : p ∈ r
    · rw [if_pos hp]
      refine ⟨(ih r h).1, fun q => ?_⟩
      rw [(ih r h).2 q, List.mem_cons]
      constructor
      · rintro (h | h) <;> simp [h]
      · rintro (h | rfl | h)
        · exact .inl h
        · exact .inl hp
        · exact .inr h
    · rw [if_neg hp]
      have hn : (r ++ [p]).Nodup := by
        rw [List.nodup_append]
        refine ⟨h, by simp, ?_⟩
        intro a ha b hb
        simp at hb; subst hb
        rintro rfl; exact hp ha
      refine ⟨(ih _ hn).1, fun q => ?_⟩
      rw [(ih _ hn).2 q]
      simp only [List.mem_append, List.mem_cons, List.not_mem_nil, or_false]
      tauto

/-- `a2a_group` ends and returns, sorted, exactly the ranks connected to its seeds. -/
theorem a2aGroup_spec {bin bout : List Box} (hl : bout.length = bin.length) {send recv : List Nat}
    (hs : ∀ p ∈ send ++ recv, p < bin.length) :
    ∃ g, a2aGroup send recv bin bout = .ok g ∧ g = (List.range bin.length).filter (fun i => decide (i ∈ g)) ∧
      ∀ q, q ∈ g ↔ ∃ p ∈ send ++ recv, Reach bin bout p q := by
  obtain ⟨h1, h2⟩ := a2aSeeds_aux (send ++ recv) [] List.nodup_nil
  have hinv : GroupInv bin bout bin.length (send ++ recv) (a2aSeeds (send ++ recv)) := by
    refine ⟨h1, ?_, ?_⟩
    · intro q hq
      have := (h2 q).1 hq
      simp only [List.not_mem_nil, false_or] at this
      exact hs q this
    · intro q hq
      have := (h2 q).1 hq
      simp only [List.not_mem_nil, false_or] at this
      exact ⟨q, this, .refl⟩
  obtain ⟨out, ho, hi, hseed, hcl⟩ := a2aLoop_spec (bin.length + 1) _ hinv
    (fun p hp => (h2 p).2 (.inr hp)) (by omega)
  refine ⟨(List.range bin.length).filter (fun i => decide (i ∈ out)), ?_, ?_, ?_⟩
  · simp only [a2aGroup, ho, bind, Except.bind]
  · apply List.filter_congr
    intro i hi'
    simp only [List.mem_filter, decide_eq_true_eq, hi', true_and]
  · intro q
    simp only [List.mem_filter, decide_eq_true_eq, List.mem_range]
    constructor
    · rintro ⟨-, hq⟩; exact hi.reach q hq
    · rintro ⟨p, hp, hr⟩
      have : q ∈ out := by
        induction hr with
        | refl => exact hseed p hp
        | tail h ha ih =>
          apply hcl _ ih _ _ ha
          rcases ha with ha | ha
          · rw [← hl]; exact (touch_lt ha).2
          · exact (touch_lt ha).2
      exact ⟨hi.lt q this, this⟩

theorem sorted_ext {n : Nat} {g h : List Nat} (hg : g = (List.range n).filter (fun i => decide (i ∈ g)))
    (hh : h = (List.range n).filter (fun i => decide (i ∈ h))) (he : ∀ q, q ∈ g ↔ q ∈ h) : g = h := by
  rw [hg, hh]
  apply List.filter_congr
  intro i _
  simp only [decide_eq_decide]
  exact he i

theorem Reach.has_neighbour {bin bout : List Box} {p q : Nat} (h : Reach bin bout p q) (hne : p ≠ q) :
    ∃ r, Adj bin bout q r := by
  cases h with
  | refl => exact absurd rfl hne
  | tail _ ha => exact ⟨_, ha.symm⟩

end Verif
