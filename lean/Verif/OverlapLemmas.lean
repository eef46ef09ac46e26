import Verif.SplitLemmas

/-! # Lemmas about `maximize_overlap` -/

namespace Verif

/-- The box with another storage order. -/
def Box.withOrder (o : A3 (Fin 3)) (b : Box) : Box := ⟨b.low, b.high, o⟩

theorem Box.mem_withOrder {o : A3 (Fin 3)} {b : Box} {p : A3 Int} : p ∈ b.withOrder o ↔ p ∈ b := Iff.rfl

@[simp] theorem Box.withOrder_size (o : A3 (Fin 3)) (b : Box) : (b.withOrder o).size = b.size := rfl
@[simp] theorem Box.withOrder_empty (o : A3 (Fin 3)) (b : Box) : (b.withOrder o).empty = b.empty := rfl
@[simp] theorem Box.withOrder_count (o : A3 (Fin 3)) (b : Box) : (b.withOrder o).count = b.count := rfl
@[simp] theorem Box.withOrder_order (o : A3 (Fin 3)) (b : Box) : (b.withOrder o).order = o := rfl

theorem reorder_eq (l : List Box) (o : A3 (Fin 3)) : reorder l o = l.map (Box.withOrder o) := rfl

theorem owners_withOrder (l : List Box) (o : A3 (Fin 3)) (p : A3 Int) :
    owners (l.map (Box.withOrder o)) p = owners l p :=
  owners_map _ _ _ fun _ _ => Box.mem_withOrder

theorem Tiles.withOrder {l : List Box} {w : Box} (h : Tiles l w) (o : A3 (Fin 3)) :
    Tiles (l.map (Box.withOrder o)) w := fun p => by rw [owners_withOrder]; exact h p

theorem overlapFold_spec (o : Box) (L : List ((Box × Bool) × Nat)) (acc : Int × Option Nat) :
    L.foldl (overlapStep o) acc = acc ∧ (∀ e ∈ L, e.1.2 = false → toInt32 (o.collide e.1.1).count ≤ acc.1) ∨
    ∃ e ∈ L, e.1.2 = false ∧ L.foldl (overlapStep o) acc = (toInt32 (o.collide e.1.1).count, some e.2) ∧
      acc.1 < toInt32 (o.collide e.1.1).count ∧
      ∀ e' ∈ L, e'.1.2 = false → toInt32 (o.collide e'.1.1).count ≤ toInt32 (o.collide e.1.1).count := by
  induction L generalizing acc with
  | nil => left; simp
  | cons e L ih =>
    rw [List.foldl_cons]
    by_cases hc : (!e.1.2 && decide (toInt32 (o.collide e.1.1).count > acc.1)) = true
    · have hs : overlapStep o acc e = (toInt32 (o.collide e.1.1).count, some e.2) := by
        simp only [overlapStep]; rw [if_pos hc]
      rw [hs]
      simp only [Bool.and_eq_true, Bool.not_eq_true', decide_eq_true_eq] at hc
      rcases ih (toInt32 (o.collide e.1.1).count, some e.2) with ⟨h1, h2⟩ | ⟨e', he', h1, h2, h3, h4⟩
      · right
        refine ⟨e, List.mem_cons_self .., hc.1, h1, hc.2, ?_⟩
        simp only [List.mem_cons, forall_eq_or_imp]
        exact ⟨fun _ => le_refl _, h2⟩
      · right
        refine ⟨e', List.mem_cons_of_mem _ he', h1, h2, by simp only at h3; omega, ?_⟩
        simp only [List.mem_cons, forall_eq_or_imp]
        exact ⟨fun _ => by simp only at h3; omega, h4⟩
    · have hs : overlapStep o acc e = acc := by
        simp only [overlapStep]; rw [if_neg hc]
      rw [hs]
      simp only [Bool.and_eq_true, Bool.not_eq_true', decide_eq_true_eq, not_and, not_lt] at hc
      rcases ih acc with ⟨h1, h2⟩ | ⟨e', he', h1, h2, h3, h4⟩
      · left
        refine ⟨h1, ?_⟩
        simp only [List.mem_cons, forall_eq_or_imp]
        exact ⟨fun h => by have := hc h; omega, h2⟩
      · right
        refine ⟨e', List.mem_cons_of_mem _ he', h1, h2, h3, ?_⟩
        simp only [List.mem_cons, forall_eq_or_imp]
        exact ⟨fun h => by have := hc h; omega, h4⟩

theorem mem_zip_zipIdx {new : List Box} {taken : List Bool} {b : Box} {t : Bool} {i : Nat} :
    ((b, t), i) ∈ (new.zip taken).zipIdx ↔ new[i]? = some b ∧ taken[i]? = some t := by
  rw [List.mem_zipIdx_iff_getElem?]
  simp only [List.getElem?_zip_eq_some]

theorem findBest_some {o : Box} {new : List Box} {taken : List Bool} {m : Nat}
    (h : findBest o new taken = some m) : ∃ b, new[m]? = some b ∧ taken[m]? = some false := by
  unfold findBest at h
  rcases overlapFold_spec o (new.zip taken).zipIdx (-1, none) with ⟨h1, -⟩ | ⟨⟨⟨b, t⟩, i⟩, he, h1, h2, -⟩
  · rw [h1] at h; cases h
  · rw [h2] at h
    simp only [Option.some.injEq] at h h1
    subst h h1
    exact ⟨b, mem_zip_zipIdx.1 he⟩

theorem findBest_isSome {o : Box} {new : List Box} {taken : List Bool} {m : Nat} {b : Box}
    (h1 : new[m]? = some b) (h2 : taken[m]? = some false) (h3 : -1 < toInt32 (o.collide b).count) :
    ∃ i, findBest o new taken = some i := by
  unfold findBest
  rcases overlapFold_spec o (new.zip taken).zipIdx (-1, none) with ⟨-, h⟩ | ⟨e, -, -, h, -⟩
  · have := h ((b, false), m) (mem_zip_zipIdx.2 ⟨h1, h2⟩) rfl
    simp only at this; omega
  · exact ⟨_, by rw [h]⟩

theorem toInt32_of_lt {n : Int} (h0 : 0 ≤ n) (h : n < 2 ^ 31) : toInt32 n = n := by
  unfold toInt32
  rw [Int.bmod_def]
  have h' : n % ((2 ^ 32 : Nat) : Int) = n := Int.emod_eq_of_lt h0 (by norm_num; omega)
  rw [h', if_pos (by norm_num; omega)]

/-- The boxes not yet handed out. -/
def freeBoxes (new : List Box) (taken : List Bool) : List Box :=
  ((new.zip taken).filter fun x => !x.2).map Prod.fst

theorem freeBoxes_pick {new : List Box} {taken : List Bool} {m : Nat} {b : Box}
    (h1 : new[m]? = some b) (h2 : taken[m]? = some false) :
    (freeBoxes new taken).Perm (b :: freeBoxes new (taken.set m true)) := by
  induction new generalizing taken m with
  | nil => simp at h1
  | cons c new ih =>
    cases taken with
    | nil => simp at h2
    | cons t taken =>
      cases m with
      | zero =>
        simp only [List.getElem?_cons_zero, Option.some.injEq] at h1 h2
        subst h1 h2
        simp [freeBoxes]
      | succ m =>
        simp only [List.getElem?_cons_succ] at h1 h2
        have := ih h1 h2
        simp only [freeBoxes, List.set_cons_succ, List.zip_cons_cons, List.filter_cons] at this ⊢
        cases t with
        | true => simpa using this
        | false =>
          simp only [Bool.not_false, if_true, List.map_cons]
          exact (this.cons c).trans (List.Perm.swap ..)

/-- Which ranks are outside of the group. -/
def Remap.flags (r : Remap) (n : Nat) : List Bool :=
  if r.isAll then List.replicate n false else r.map.map Option.isNone

theorem Remap.unused_eq (r : Remap) (n i : Nat) (hi : i < n) :
    r.unused i = (r.flags n)[i]? := by
  unfold Remap.unused Remap.flags
  split
  · simp [hi]
  · simp

/-- Boxes of the ranks outside of the group. -/
def outBoxes (new : List Box) (flags : List Bool) : List Box :=
  ((new.zip flags).filter fun x => x.2).map Prod.fst

theorem overlapLoop_perm {new old : List Box} {order : A3 (Fin 3)} {remap : Remap}
    (fuel i : Nat) (taken : List Bool) (res : List Box) (hi : i + fuel = new.length)
    (h : overlapLoop new old order remap fuel i taken = .ok res) :
    ∃ left : List Box,
      ((freeBoxes new taken ++ outBoxes (new.drop i) ((remap.flags new.length).drop i)).map (Box.withOrder order)).Perm
        (res ++ left.map (Box.withOrder order)) ∧
      left.length + ((remap.flags new.length).drop i).countP (fun f => !f) ≤
        (freeBoxes new taken).length + ((remap.flags new.length).drop new.length).countP (fun f => !f) ∧
      res.length = fuel := by
  induction fuel generalizing i taken res with
  | zero =>
    simp only [overlapLoop, Except.ok.injEq] at h
    subst h
    obtain rfl : i = new.length := by omega
    exact ⟨freeBoxes new taken, by simp [outBoxes], by simp, rfl⟩
  | succ fuel ih =>
    have hin : i < new.length := by omega
    unfold overlapLoop at h
    rw [Remap.unused_eq remap new.length i hin, List.getElem?_eq_getElem hin] at h
    cases hf : (remap.flags new.length)[i]? with
    | none => rw [hf] at h; cases h
    | some f =>
      rw [hf] at h
      obtain ⟨hfi, hfe⟩ := List.getElem?_eq_some_iff.1 hf
      have hd1 : new.drop i = new[i] :: new.drop (i+1) := List.drop_eq_getElem_cons hin
      have hd2 : (remap.flags new.length).drop i = f :: (remap.flags new.length).drop (i+1) := by
        rw [List.drop_eq_getElem_cons hfi, hfe]
      cases f with
      | true =>
        simp only at h
        cases hr : overlapLoop new old order remap fuel (i+1) taken with
        | error e => rw [hr] at h; cases h
        | ok rest =>
          rw [hr] at h
          injection h with h
          subst h
          obtain ⟨left, h1, h2, h3⟩ := ih (i+1) taken rest (by omega) hr
          refine ⟨left, ?_, ?_, by simp [h3]⟩
          · rw [hd1, hd2]
            simp only [outBoxes, List.zip_cons_cons, List.filter_cons, if_true, List.map_cons, List.map_append,
              List.cons_append] at h1 ⊢
            refine List.perm_middle.trans ?_
            exact h1.cons _
          · rw [hd2]; simpa using h2
      | false =>
        simp only at h
        cases ho : old[i]? with
        | none => rw [ho] at h; cases h
        | some o =>
          rw [ho] at h
          simp only at h
          cases hb : findBest o new taken with
          | none => rw [hb] at h; cases h
          | some m =>
            rw [hb] at h
            simp only at h
            obtain ⟨b, hb1, hb2⟩ := findBest_some hb
            rw [hb1] at h
            simp only at h
            cases hr : overlapLoop new old order remap fuel (i+1) (taken.set m true) with
            | error e => rw [hr] at h; cases h
            | ok rest =>
              rw [hr] at h
              injection h with h
              subst h
              obtain ⟨left, h1, h2, h3⟩ := ih (i+1) (taken.set m true) rest (by omega) hr
              have hp := freeBoxes_pick hb1 hb2
              refine ⟨left, ?_, ?_, by simp [h3]⟩
              · rw [hd1, hd2]
                simp only [outBoxes, List.zip_cons_cons, List.filter_cons, Bool.false_eq_true, if_false] at h1 ⊢
                refine ((hp.append_right _).map _).trans ?_
                simp only [List.cons_append, List.map_cons]
                exact h1.cons _
              · rw [hd2, hp.length_eq]
                simp only [List.countP_cons, Bool.not_false, if_true, List.length_cons]
                omega

theorem freeBoxes_init {new : List Box} {remap : Remap} {taken : List Bool} (h : initTaken new remap = .ok taken)
    (hm : remap.isAll = true ∨ remap.map.length = new.length) :
    taken = remap.flags new.length := by
  unfold initTaken at h
  unfold Remap.flags
  split at h
  · rename_i ha
    rw [if_pos ha]
    simp only [Except.ok.injEq] at h
    rw [← h, List.map_const']
  · rename_i ha
    rw [if_neg ha]
    split at h
    · cases h
    · simp only [Except.ok.injEq] at h
      rw [← h]
      have hm : remap.map.length = new.length := by simpa [ha] using hm
      apply List.ext_getElem?
      intro i
      by_cases hi : i < new.length
      · rw [List.getElem?_map, List.getElem?_range hi, List.getElem?_map, List.getElem?_eq_getElem (hm ▸ hi)]
        simp only [Option.map_some, List.getElem?_eq_getElem (hm.symm ▸ hi : i < remap.map.length)]
        cases remap.map[i]'(hm ▸ hi) <;> simp
      · rw [List.getElem?_eq_none (by simpa using hi), List.getElem?_eq_none (by simpa [hm] using hi)]

theorem filter_split_perm {new : List Box} {flags : List Bool} (h : flags.length = new.length) :
    (freeBoxes new flags ++ outBoxes new flags).Perm new := by
  unfold freeBoxes outBoxes
  rw [← List.map_append]
  have h1 : ((new.zip flags).filter (fun x => !x.2) ++ (new.zip flags).filter (fun x => x.2)).Perm
      (new.zip flags) := by
    have := List.filter_append_perm (fun x : Box × Bool => !x.2) (new.zip flags)
    simpa using this
  refine (h1.map _).trans (List.Perm.of_eq ?_)
  rw [List.map_fst_zip]
  omega

theorem freeBoxes_length {new : List Box} {flags : List Bool} (h : flags.length = new.length) :
    (freeBoxes new flags).length = flags.countP (fun f => !f) := by
  unfold freeBoxes
  rw [List.length_map, ← List.countP_eq_length_filter]
  have h2 : (new.zip flags).map Prod.snd = flags := List.map_snd_zip (by omega)
  conv_rhs => rw [← h2]
  rw [List.countP_map]
  rfl

theorem Remap.flags_length {r : Remap} {n : Nat} (h : r.isAll = true ∨ r.map.length = n) :
    (r.flags n).length = n := by
  unfold Remap.flags
  split
  · simp
  · rename_i ha
    have : r.map.length = n := by simpa [ha] using h
    simp [this]

/-- Whenever `maximize_overlap` returns, the result is a permutation of the new boxes. -/
theorem maximizeOverlap_perm {new old : List Box} {order : A3 (Fin 3)} {remap : Remap} {res : List Box}
    (hm : remap.isAll = true ∨ remap.map.length = new.length)
    (h : maximizeOverlap new old order remap = .ok res) : res.Perm (new.map (Box.withOrder order)) := by
  unfold maximizeOverlap at h
  cases ht : initTaken new remap with
  | error e => rw [ht] at h; cases h
  | ok taken =>
    rw [ht] at h
    have h : overlapLoop new old order remap new.length 0 taken = .ok res := h
    obtain rfl := freeBoxes_init ht hm
    obtain ⟨left, h1, h2, h3⟩ := overlapLoop_perm _ _ _ _ (by omega) h
    have hl := Remap.flags_length hm
    rw [List.drop_of_length_le (l := remap.flags new.length) (i := new.length) (by omega), freeBoxes_length hl] at h2
    simp only [List.drop_zero, List.countP_nil] at h1 h2
    have : left = [] := List.eq_nil_of_length_eq_zero (by omega)
    subst this
    simp only [List.map_nil, List.append_nil] at h1
    exact h1.symm.trans ((filter_split_perm hl).map _)

/-- Ranks outside of the group keep their box. -/
theorem overlapLoop_outside {new old : List Box} {order : A3 (Fin 3)} {remap : Remap}
    (fuel i : Nat) (taken : List Bool) (res : List Box)
    (h : overlapLoop new old order remap fuel i taken = .ok res) (k : Nat) (hk : k < fuel) (b : Box)
    (hu : remap.unused (i+k) = some true) (hb : new[i+k]? = some b) :
    res[k]? = some (b.withOrder order) := by
  induction fuel generalizing i taken res k with
  | zero => omega
  | succ fuel ih =>
    unfold overlapLoop at h
    split at h
    · rename_i b' hu' hb'
      cases hr : overlapLoop new old order remap fuel (i+1) taken with
      | error e => rw [hr] at h; cases h
      | ok rest =>
        rw [hr] at h
        injection h with h
        subst h
        cases k with
        | zero =>
          rw [Nat.add_zero] at hb
          rw [hb] at hb'; injection hb' with hb'; subst hb'; rfl
        | succ k =>
          exact ih (i+1) taken rest hr k (by omega) (by rwa [show i + 1 + k = i + (k+1) by omega])
            (by rwa [show i + 1 + k = i + (k+1) by omega])
    · rename_i b' hu' hb'
      cases k with
      | zero => rw [Nat.add_zero] at hu; rw [hu] at hu'; cases hu'
      | succ k =>
        split at h
        · cases h
        · split at h
          · cases h
          · split at h
            · cases h
            · rename_i m _ _ c _
              cases hr : overlapLoop new old order remap fuel (i+1) (taken.set m true) with
              | error e => rw [hr] at h; cases h
              | ok rest =>
                rw [hr] at h
                injection h with h
                subst h
                exact ih (i+1) _ rest hr k (by omega) (by rwa [show i + 1 + k = i + (k+1) by omega])
                  (by rwa [show i + 1 + k = i + (k+1) by omega])
    · cases h

theorem maximizeOverlap_outside {new old : List Box} {order : A3 (Fin 3)} {remap : Remap} {res : List Box}
    (h : maximizeOverlap new old order remap = .ok res) {k : Nat} {b : Box}
    (hu : remap.map[k]? = some none) (hb : new[k]? = some b) : res[k]? = some (b.withOrder order) := by
  unfold maximizeOverlap at h
  cases ht : initTaken new remap with
  | error e => rw [ht] at h; cases h
  | ok taken =>
    rw [ht] at h
    have h : overlapLoop new old order remap new.length 0 taken = .ok res := h
    have hk : k < new.length := (List.getElem?_eq_some_iff.1 hb).1
    refine overlapLoop_outside _ _ _ _ h k hk b ?_ (by simpa using hb)
    rw [Nat.zero_add]
    unfold Remap.unused
    rw [if_neg, hu]
    · rfl
    · cases hm : remap.map with
      | nil => rw [hm] at hu; simp at hu
      | cons a t => simp [Remap.isAll, hm]

theorem freeBoxes_ne_nil {new : List Box} {taken : List Bool} (h : 0 < (freeBoxes new taken).length) :
    ∃ (m : Nat) (b : Box), new[m]? = some b ∧ taken[m]? = some false := by
  unfold freeBoxes at h
  rw [List.length_map] at h
  obtain ⟨⟨b, t⟩, hx⟩ := List.exists_mem_of_length_pos h
  rw [List.mem_filter] at hx
  obtain ⟨m, hm, he⟩ := List.getElem_of_mem hx.1
  have : (new.zip taken)[m]? = some (b, t) := by rw [List.getElem?_eq_getElem hm, he]
  rw [List.getElem?_zip_eq_some] at this
  refine ⟨m, b, this.1, ?_⟩
  rw [this.2]
  simpa using hx.2

theorem overlapLoop_ok {new old : List Box} {order : A3 (Fin 3)} {remap : Remap}
    (hlen : old.length = new.length)
    (hm : remap.isAll = true ∨ remap.map.length = new.length)
    (hsmall : ∀ o ∈ old, ∀ b ∈ new, (o.collide b).count < 2 ^ 31)
    (fuel i : Nat) (taken : List Bool) (hi : i + fuel = new.length)
    (hfree : ((remap.flags new.length).drop i).countP (fun f => !f) ≤ (freeBoxes new taken).length) :
    ∃ res, overlapLoop new old order remap fuel i taken = .ok res := by
  induction fuel generalizing i taken with
  | zero => exact ⟨[], rfl⟩
  | succ fuel ih =>
    have hin : i < new.length := by omega
    have hfl := Remap.flags_length hm
    have hd2 : (remap.flags new.length).drop i =
        (remap.flags new.length)[i] :: (remap.flags new.length).drop (i+1) := List.drop_eq_getElem_cons (by omega)
    unfold overlapLoop
    rw [Remap.unused_eq remap new.length i hin, List.getElem?_eq_getElem hin,
      List.getElem?_eq_getElem (by omega : i < (remap.flags new.length).length)]
    rw [hd2] at hfree
    cases hf : (remap.flags new.length)[i] with
    | true =>
      rw [hf] at hfree
      obtain ⟨rest, hr⟩ := ih (i+1) taken (by omega) (by simpa using hfree)
      exact ⟨new[i].withOrder order :: rest, by simp only [hr]; rfl⟩
    | false =>
      rw [hf] at hfree
      simp only [List.countP_cons, Bool.not_false, if_true] at hfree
      rw [List.getElem?_eq_getElem (by omega : i < old.length)]
      obtain ⟨m0, b0, hb0, ht0⟩ := freeBoxes_ne_nil (new := new) (taken := taken) (by omega)
      have hc := hsmall old[i] (List.getElem_mem _) b0 (List.mem_of_getElem? hb0)
      obtain ⟨m, hm'⟩ := findBest_isSome (o := old[i]) hb0 ht0 (by
        rw [toInt32_of_lt (Box.count_nonneg _) hc]
        have := Box.count_nonneg (old[i].collide b0); omega)
      obtain ⟨b, hb1, hb2⟩ := findBest_some hm'
      have hp := freeBoxes_pick hb1 hb2
      obtain ⟨rest, hr⟩ := ih (i+1) (taken.set m true) (by omega) (by
        rw [hp.length_eq, List.length_cons] at hfree; omega)
      exact ⟨b.withOrder order :: rest, by simp only [hm', hb1, hr]; rfl⟩

theorem maximizeOverlap_ok {new old : List Box} {order : A3 (Fin 3)} {remap : Remap}
    (hlen : old.length = new.length)
    (hm : remap.isAll = true ∨ remap.map.length = new.length)
    (hsmall : ∀ o ∈ old, ∀ b ∈ new, (o.collide b).count < 2 ^ 31) :
    ∃ res, maximizeOverlap new old order remap = .ok res := by
  have ht : ∃ taken, initTaken new remap = .ok taken := by
    unfold initTaken
    split
    · exact ⟨_, rfl⟩
    · rename_i ha
      have hm : remap.map.length = new.length := by simpa [ha] using hm
      rw [List.drop_of_length_le (by omega)]
      exact ⟨_, rfl⟩
  obtain ⟨taken, ht⟩ := ht
  obtain rfl := freeBoxes_init ht hm
  unfold maximizeOverlap
  rw [ht]
  refine overlapLoop_ok hlen hm hsmall new.length 0 _ (by omega) ?_
  rw [freeBoxes_length (Remap.flags_length hm), List.drop_zero]

end Verif
