import Verif.PortLemmas

/-!
# Sizes of the communication buffers
-/

namespace Verif
variable {bin bout : List Box} {w : Box}

theorem card_le_sum {S : Finset (A3 Int)} {l : List Nat} {f : Nat → Finset (A3 Int)} (hc : ∀ p ∈ S, ∃ q ∈ l, p ∈ f q) {m : Int}
    (hm : ∀ q ∈ l, ((f q).card : Int) ≤ m) : (S.card : Int) ≤ m * l.length := by
  have key : ∀ (l : List Nat) (S : Finset (A3 Int)), (∀ p ∈ S, ∃ q ∈ l, p ∈ f q) → (∀ q ∈ l, ((f q).card : Int) ≤ m) →
      (S.card : Int) ≤ m * l.length := by
    intro l
    induction l with
    | nil =>
      intro S hc _
      obtain rfl : S = ∅ := Finset.eq_empty_of_forall_notMem fun p hp => by
        obtain ⟨q, hq, -⟩ := hc p hp; simp at hq
      simp
    | cons a t ih =>
      intro S hc hm
      have h1 := ih (S \ f a) (fun p hp => by
        rw [Finset.mem_sdiff] at hp
        obtain ⟨q, hq, hpq⟩ := hc p hp.1
        rcases List.mem_cons.1 hq with rfl | hq
        · exact absurd hpq hp.2
        · exact ⟨q, hq, hpq⟩) (fun q hq => hm q (List.mem_cons_of_mem _ hq))
      have h2 := hm a List.mem_cons_self
      have h3 : S.card ≤ (S \ f a).card + (f a).card := by
        rw [← Finset.card_sdiff_add_card_inter S (f a)]
        exact Nat.add_le_add_left (Finset.card_le_card Finset.inter_subset_right) _
      have h3 : (S.card : Int) ≤ (S \ f a).card + (f a).card := by exact_mod_cast h3
      rw [List.length_cons]
      push_cast
      rw [mul_add, mul_one]
      omega
  exact key l S hc hm

theorem collide_points (a b : Box) : (a.collide b).points = a.points ∩ b.points := by
  ext p; rw [Finset.mem_inter, Box.mem_points, Box.mem_points, Box.mem_points, Box.mem_collide]

/-- The workspace of a reshape has room for both boxes. -/
theorem ws_ge (h : Redistribution bin bout w) (alg : Alg) {shs : List (Option Shaper)}
    (hs : shapersOf alg bin bout = .ok shs) {r : Nat} {sh : Shaper} (hn : shs[r]? = some (some sh)) :
    (boxAt bin r).count + (boxAt bout r).count ≤ sh.sizeWorkspace := by
  rcases shapersOf_cases h alg with ⟨hm, e⟩ | ⟨hm, g, hg, e⟩
  · rw [hs] at e
    rw [Except.ok.inj e] at hn
    obtain ⟨hr, hn⟩ := range_map_get.1 hn
    have bounds := boxesMatch_get hm hr
    unfold matchShaper at hn
    split at hn
    · cases hn
    split at hn
    · cases hn
    rename_i hd he
    obtain rfl := Option.some.inj hn
    have hoo := h.validOut _ (boxAt_mem (r := r) (by rw [h.length]; exact hr))
    have hne : ((boxAt bout r).collide (boxAt bin r)).empty = false := by simpa using he
    have hco := collide_same bounds.1.symm bounds.2.symm hne
    have hcnt : (boxAt bin r).count = (boxAt bout r).count := Box.count_congr fun p => mem_congr_bounds bounds.1 bounds.2 p
    have hone : (boxAt bout r).empty = false := by rw [hco] at hne; exact hne
    have hsz : (transposePlan (boxAt bout r) ((boxAt bout r).collide (boxAt bin r)) (boxAt bin r).order).size 0 *
        (transposePlan (boxAt bout r) ((boxAt bout r).collide (boxAt bin r)) (boxAt bin r).order).size 1 *
        (transposePlan (boxAt bout r) ((boxAt bout r).collide (boxAt bin r)) (boxAt bin r).order).size 2 = (boxAt bout r).count := by
      rw [Box.count_osize hoo hone, hco]
      simp only [transposePlan, A3.get_zero, A3.get_one, A3.get_two]
      ring
    unfold Shaper.sizeWorkspace
    dsimp only
    rw [hsz, hcnt]
  · rw [hs] at e
    rw [Except.ok.inj e] at hn
    obtain ⟨hr, hn⟩ := range_map_get.1 hn
    unfold commShaper at hn
    cases alg with
    | alltoallv =>
      simp only [objV] at hn
      split at hn
      · cases hn
      · obtain rfl := Option.some.inj hn; exact le_refl _
    | p2p => obtain rfl := Option.some.inj hn; exact le_refl _
    | p2pPlined => obtain rfl := Option.some.inj hn; exact le_refl _
    | alltoall =>
      simp only [objA] at hn
      split at hn
      · cases hn
      · rename_i hgr
        obtain rfl := Option.some.inj hn
        have hself : r ∈ g r := by
          obtain ⟨q, hq⟩ := List.exists_mem_of_ne_nil _ hgr
          exact hg.self r q hr hq
        unfold Shaper.sizeWorkspace AllToAll.sizeWorkspace
        dsimp only
        rw [overlapA_send h.length (fun q hq => hg.lt hr hq), List.length_map, Box.count_eq_card, Box.count_eq_card]
        have h1 := card_le_sum (S := (boxAt bin r).points) (l := g r) (m := getMaxSize (g r) bin bout)
          (f := fun q => ((boxAt bin r).collide (boxAt bout q)).points) (fun p hp => by
            have hp := Box.mem_points.1 hp
            obtain ⟨s, hs, hp'⟩ := h.cover' hr hp
            exact ⟨s, hg.nbr r s hr (cnt_pos_adj h.length hr hs (msgCount_pos hp hp')), Box.mem_points.2 (Box.mem_collide.2 ⟨hp, hp'⟩)⟩)
          (fun q hq => by
            rw [← Box.count_eq_card]
            exact cnt_le_getMaxSize h.length hself hq hr (hg.lt hr hq))
        have h2 := card_le_sum (S := (boxAt bout r).points) (l := g r) (m := getMaxSize (g r) bin bout)
          (f := fun q => ((boxAt bin q).collide (boxAt bout r)).points) (fun p hp => by
            have hp := Box.mem_points.1 hp
            obtain ⟨s, hs, hp'⟩ := h.cover hr hp
            exact ⟨s, hg.nbr r s hr (cnt_pos_adj h.length hs hr (msgCount_pos hp' hp)).symm, Box.mem_points.2 (Box.mem_collide.2 ⟨hp', hp⟩)⟩)
          (fun q hq => by
            rw [← Box.count_eq_card]
            exact cnt_le_getMaxSize h.length hq hself (hg.lt hr hq) hr)
        nlinarith [h1, h2]

theorem sizeWorkspace_nonneg (h : Redistribution bin bout w) (alg : Alg) {shs : List (Option Shaper)}
    (hs : shapersOf alg bin bout = .ok shs) {r : Nat} {sh : Shaper} (hn : shs[r]? = some (some sh)) : 0 ≤ sh.sizeWorkspace := by
  have := ws_ge h alg hs hn
  have := Box.count_nonneg (boxAt bin r)
  have := Box.count_nonneg (boxAt bout r)
  omega

theorem workspaceOf_nonneg (s : Fin 4 → Option Shaper) : 0 ≤ workspaceOf s := by
  unfold workspaceOf
  simp only [List.foldl_cons, List.foldl_nil]
  cases s 0 <;> cases s 1 <;> cases s 2 <;> cases s 3 <;> simp

theorem le_workspaceOf {s : Fin 4 → Option Shaper} {i : Fin 4} {sh : Shaper} (h : s i = some sh) : sh.sizeWorkspace ≤ workspaceOf s := by
  unfold workspaceOf
  simp only [List.foldl_cons, List.foldl_nil]
  fin_cases i
  all_goals
    simp only [Fin.zero_eta, Fin.mk_one, Fin.reduceFinMk] at h
    rw [h]
    cases h0 : s 0 <;> cases h1 : s 1 <;> cases h2 : s 2 <;> cases h3 : s 3 <;> simp_all

theorem commSize_nonneg (f b : Fin 4 → Option Shaper) : 0 ≤ commSize f b := le_trans (workspaceOf_nonneg f) (le_max_left _ _)

theorem le_commSize_fwd {f b : Fin 4 → Option Shaper} {i : Fin 4} {sh : Shaper} (h : f i = some sh) : sh.sizeWorkspace ≤ commSize f b :=
  le_trans (le_workspaceOf h) (le_max_left _ _)

theorem le_commSize_bwd {f b : Fin 4 → Option Shaper} {i : Fin 4} {sh : Shaper} (h : b i = some sh) : sh.sizeWorkspace ≤ commSize f b :=
  le_trans (le_workspaceOf h) (le_max_right _ _)

end Verif
