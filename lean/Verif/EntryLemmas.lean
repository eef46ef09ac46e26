import Verif.MoveLemmas
import Verif.GroupLemmas
import Mathlib.Algebra.BigOperators.Group.Finset.Basic
import Mathlib.Algebra.Order.BigOperators.Group.Finset

/-!
# Overlap maps, prefix sums of message sizes
-/

namespace Verif

/-! ## Overlap maps -/

/-- Common form of the two overlap maps. -/
def overlapG (mk : Box → Box → PackPlan) (me : Nat) (source : Box) (boxes : List Box) : List Entry :=
  (List.range boxes.length).filterMap fun i =>
    let iproc := (i + me + 1) % boxes.length
    (boxes[iproc]?).bind fun b =>
      let overlap := source.collide b
      if overlap.empty then none
      else some ⟨iproc, overlapOffset source overlap, overlap.count, mk b overlap⟩

theorem overlapMapDirect_eq (me : Nat) (source : Box) (boxes : List Box) :
    overlapMapDirect me source boxes = overlapG (fun _ ov => directPlan source ov) me source boxes := rfl

theorem overlapMapTranspose_eq (me : Nat) (dest : Box) (boxes : List Box) :
    overlapMapTranspose me dest boxes = overlapG (fun b ov => transposePlan dest ov b.order) me dest boxes := rfl

/-- The ranks in the order they are visited by rank `me`. -/
def rot (n me : Nat) : List Nat := (List.range n).map fun i => (i + me + 1) % n

theorem rot_mod {n me i : Nat} (hm : me < n) (hi : i < n) :
    (i + me + 1) % n = if i + me + 1 < n then i + me + 1 else i + me + 1 - n := by
  split
  · rw [Nat.mod_eq_of_lt (by assumption)]
  · rw [Nat.mod_eq_sub_mod (by omega), Nat.mod_eq_of_lt (by omega)]

theorem mem_rot {n me : Nat} (hm : me < n) (q : Nat) : q ∈ rot n me ↔ q < n := by
  simp only [rot, List.mem_map, List.mem_range]
  constructor
  · rintro ⟨i, hi, rfl⟩; exact Nat.mod_lt _ (by omega)
  · intro hq
    by_cases h : me < q
    · exact ⟨q - me - 1, by omega, by rw [rot_mod hm (by omega), if_pos (by omega)]; omega⟩
    · exact ⟨q + n - me - 1, by omega, by rw [rot_mod hm (by omega), if_neg (by omega)]; omega⟩

theorem rot_nodup {n me : Nat} (hm : me < n) : (rot n me).Nodup := by
  unfold rot
  apply List.Nodup.map_on _ List.nodup_range
  intro i hi j hj h
  rw [List.mem_range] at hi hj
  rw [rot_mod hm hi, rot_mod hm hj] at h
  split at h <;> split at h <;> omega

theorem rot_last {n me : Nat} (hm : me < n) : ∃ l, rot n me = l ++ [me] := by
  obtain ⟨k, rfl⟩ : ∃ k, n = k + 1 := ⟨n - 1, by omega⟩
  refine ⟨(List.range k).map fun i => (i + me + 1) % (k + 1), ?_⟩
  simp only [rot, List.range_succ, List.map_append, List.map_cons, List.map_nil]
  rw [rot_mod hm (by omega), if_neg (by omega)]
  congr 2; omega

/-- The entry for rank `r` with box `b`. -/
def entryOf (mk : Box → Box → PackPlan) (source : Box) (r : Nat) (b : Box) : Entry :=
  ⟨r, overlapOffset source (source.collide b), (source.collide b).count, mk b (source.collide b)⟩

/-- The entry for rank `r`, when there is one. -/
def entryAt (mk : Box → Box → PackPlan) (source : Box) (boxes : List Box) (r : Nat) : Option Entry :=
  (boxes[r]?).bind fun b => if (source.collide b).empty then none else some (entryOf mk source r b)

theorem overlapG_eq (mk : Box → Box → PackPlan) (me : Nat) (source : Box) (boxes : List Box) :
    overlapG mk me source boxes = (rot boxes.length me).filterMap (entryAt mk source boxes) := by
  unfold overlapG rot
  rw [List.filterMap_map]
  rfl

theorem entryAt_some {mk : Box → Box → PackPlan} {source : Box} {boxes : List Box} {r : Nat} {e : Entry} :
    entryAt mk source boxes r = some e ↔ ∃ b, boxes[r]? = some b ∧ (source.collide b).empty = false ∧
      e = entryOf mk source r b := by
  unfold entryAt
  cases h : boxes[r]? with
  | none => simp
  | some b =>
    simp only [Option.bind_some, Option.some.injEq, exists_eq_left']
    cases hc : (source.collide b).empty <;> simp [eq_comm]

theorem entryAt_proc {mk : Box → Box → PackPlan} {source : Box} {boxes : List Box} {r : Nat} {e : Entry}
    (h : entryAt mk source boxes r = some e) : e.proc = r := by
  obtain ⟨b, -, -, rfl⟩ := entryAt_some.1 h
  rfl

theorem mem_overlapG {mk : Box → Box → PackPlan} {me : Nat} {source : Box} {boxes : List Box} (hm : me < boxes.length)
    {e : Entry} : e ∈ overlapG mk me source boxes ↔ entryAt mk source boxes e.proc = some e := by
  rw [overlapG_eq, List.mem_filterMap]
  constructor
  · rintro ⟨r, -, h⟩
    rw [entryAt_proc h]; exact h
  · intro h
    refine ⟨e.proc, ?_, h⟩
    obtain ⟨b, hb, -, -⟩ := entryAt_some.1 h
    exact (mem_rot hm _).2 (List.getElem?_eq_some_iff.1 hb).1

theorem filterMap_proc (f : Nat → Option Entry) (hf : ∀ r e, f r = some e → e.proc = r) (l : List Nat) :
    (l.filterMap f).map Entry.proc = l.filter fun r => (f r).isSome := by
  induction l with
  | nil => rfl
  | cons a t ih =>
    rw [List.filterMap_cons]
    cases h : f a with
    | none => simp [h, ih]
    | some e => simp [h, ih, hf a e h]

theorem overlapG_procs {mk : Box → Box → PackPlan} {me : Nat} {source : Box} {boxes : List Box} :
    (overlapG mk me source boxes).map Entry.proc =
      (rot boxes.length me).filter fun r => (entryAt mk source boxes r).isSome := by
  rw [overlapG_eq]
  exact filterMap_proc _ (fun r e h => entryAt_proc h) _

theorem overlapG_nodup {mk : Box → Box → PackPlan} {me : Nat} {source : Box} {boxes : List Box}
    (hm : me < boxes.length) : ((overlapG mk me source boxes).map Entry.proc).Nodup := by
  rw [overlapG_procs]
  exact (rot_nodup hm).filter _

/-- The entry of the rank itself is the last one. -/
theorem overlapG_last {mk : Box → Box → PackPlan} {me : Nat} {source : Box} {boxes : List Box}
    (hm : me < boxes.length) : ∃ l, overlapG mk me source boxes = l ++ (entryAt mk source boxes me).toList ∧
      me ∉ l.map Entry.proc := by
  obtain ⟨l, hl⟩ := rot_last hm
  have hn := rot_nodup hm
  rw [hl, List.nodup_append] at hn
  refine ⟨l.filterMap (entryAt mk source boxes), ?_, ?_⟩
  · rw [overlapG_eq, hl, List.filterMap_append]
    congr 1
  · rw [filterMap_proc _ (fun r e h => entryAt_proc h)]
    intro h
    rw [List.mem_filter] at h
    exact hn.2.2 me h.1 me (by simp) rfl

theorem overlapG_nil {mk : Box → Box → PackPlan} {me : Nat} {source : Box} {boxes : List Box} (hm : me < boxes.length)
    (h : ¬ countCollisions boxes source > 0) : overlapG mk me source boxes = [] := by
  rw [List.eq_nil_iff_forall_not_mem]
  intro e he
  rw [mem_overlapG hm] at he
  obtain ⟨b, hb, hne, -⟩ := entryAt_some.1 he
  apply h
  unfold countCollisions
  rw [gt_iff_lt, List.countP_pos_iff]
  exact ⟨b, List.mem_of_getElem? hb, by simp [hne]⟩

theorem sendEntries_eq {bout : List Box} {me : Nat} {inbox : Box} (hm : me < bout.length) :
    sendEntries bout me inbox = overlapG (fun _ ov => directPlan inbox ov) me inbox bout := by
  unfold sendEntries
  split
  · rfl
  · rename_i h; rw [overlapG_nil hm h]

/-- The plan made for a receive. -/
def recvPlan (direct : Bool) (outbox b ov : Box) : PackPlan :=
  if direct then directPlan outbox ov else transposePlan outbox ov b.order

theorem recvEntries_eq {direct : Bool} {bin : List Box} {me : Nat} {outbox : Box} (hm : me < bin.length) :
    recvEntries direct bin me outbox = overlapG (recvPlan direct outbox) me outbox bin := by
  unfold recvEntries
  split
  · cases direct <;> rfl
  · rename_i h; rw [overlapG_nil hm h]

/-! ## Prefix sums -/

/-- The sum of `f` over the members of the list in front of `q`. -/
def seg (f : Nat → Int) : List Nat → Nat → Int
  | [], _ => 0
  | a :: t, q => if a = q then 0 else f a + seg f t q

theorem seg_nonneg {f : Nat → Int} {l : List Nat} (hf : ∀ a ∈ l, 0 ≤ f a) (q : Nat) : 0 ≤ seg f l q := by
  induction l with
  | nil => exact le_rfl
  | cons a t ih =>
    have h1 := hf a (by simp)
    have h2 := ih (fun b hb => hf b (by simp [hb]))
    unfold seg
    split <;> omega

theorem sum_nonneg' {f : Nat → Int} {l : List Nat} (hf : ∀ a ∈ l, 0 ≤ f a) : 0 ≤ (l.map f).sum := by
  induction l with
  | nil => exact le_rfl
  | cons a t ih =>
    have h1 := hf a (by simp)
    have h2 := ih (fun b hb => hf b (by simp [hb]))
    simp only [List.map_cons, List.sum_cons]; omega

theorem seg_le {f : Nat → Int} {l : List Nat} (hf : ∀ a ∈ l, 0 ≤ f a) {q : Nat} (hq : q ∈ l) :
    seg f l q + f q ≤ (l.map f).sum := by
  induction l with
  | nil => simp at hq
  | cons a t ih =>
    have h2 := sum_nonneg' (fun b hb => hf b (by simp [hb]) : ∀ b ∈ t, 0 ≤ f b)
    unfold seg
    simp only [List.map_cons, List.sum_cons]
    split
    · subst_vars; omega
    · rename_i hne
      have := ih (fun b hb => hf b (by simp [hb])) (by
        rcases List.mem_cons.1 hq with rfl | h
        · exact absurd rfl hne
        · exact h)
      omega

theorem seg_apart {f : Nat → Int} {l : List Nat} (hf : ∀ a ∈ l, 0 ≤ f a) {q q' : Nat} (hq : q ∈ l) (hq' : q' ∈ l)
    (hne : q ≠ q') : seg f l q + f q ≤ seg f l q' ∨ seg f l q' + f q' ≤ seg f l q := by
  induction l with
  | nil => simp at hq
  | cons a t ih =>
    have hft : ∀ b ∈ t, 0 ≤ f b := fun b hb => hf b (by simp [hb])
    have s1 := seg_nonneg hft q
    have s2 := seg_nonneg hft q'
    unfold seg
    by_cases h1 : a = q
    · subst h1
      left
      rw [if_pos rfl, if_neg hne]; omega
    · by_cases h2 : a = q'
      · subst h2
        right
        rw [if_pos rfl, if_neg h1]; omega
      · rw [if_neg h1, if_neg h2]
        have := ih hft (by rcases List.mem_cons.1 hq with rfl | h; exact absurd rfl h1; exact h)
          (by rcases List.mem_cons.1 hq' with rfl | h; exact absurd rfl h2; exact h)
        omega

theorem sum_le_range {f : Nat → Int} {n : Nat} (hf : ∀ a, a < n → 0 ≤ f a) {l : List Nat} (hn : l.Nodup)
    (hl : ∀ a ∈ l, a < n) : (l.map f).sum ≤ ((List.range n).map f).sum := by
  have h1 : (l.map f).sum = ∑ a ∈ l.toFinset, f a := (List.sum_toFinset f hn).symm
  have h2 : ((List.range n).map f).sum = ∑ a ∈ Finset.range n, f a := by
    rw [← List.sum_toFinset f List.nodup_range]
    congr 1
    ext a; simp
  rw [h1, h2]
  apply Finset.sum_le_sum_of_subset_of_nonneg
  · intro a ha
    rw [List.mem_toFinset] at ha
    exact Finset.mem_range.2 (hl a ha)
  · intro a ha _
    exact hf a (Finset.mem_range.1 ha)

end Verif
