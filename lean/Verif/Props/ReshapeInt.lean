import Verif.ReshapeIntMain
import Verif.WorkLemmas
import Verif.Props.Reshape

/-!
# The reshape in machine integers (C71)

The code is a template over the type of the coordinates, `int` or `long long`.  With both of them the sizes and offsets of
the messages are of type `int`.  `C71_partial` gives sizes for which nothing overflows; the other theorems show that it does
not suffice that the coordinates and the sizes of the boxes fit in the chosen type.
-/

namespace Verif
variable {α : Type} {bin bout : List Box} {w : Box}

/-- The sizes of the boxes of all the ranks: with the block size of the packing loops, and multiplied with the batch
size, they fit in an `int`, and the sum of the two sizes of a rank fits in the type of the coordinates. -/
structure IntSizes (t : IndexType) (bin bout : List Box) (stride nb : Nat) : Prop where
  ranks : bin.length < 2 ^ 31
  boxes : ∀ b ∈ bin ++ bout, b.points.card + stride ≤ 2 ^ 31 ∧ nb * b.points.card < 2 ^ 31
  both : ∀ (r : Nat) a b, bin[r]? = some a → bout[r]? = some b → (a.points.card + b.points.card : Int) < t.bound

/-- The padded messages: `alltoall` sends messages of one common size to all the ranks. -/
def PaddedFits (bin bout : List Box) (nb : Nat) : Prop :=
  ∃ M : Nat, (∀ a ∈ bin, ∀ b ∈ bout, (a.points ∩ b.points).card ≤ M) ∧ 2 * M < 2 ^ 31 ∧ nb * M * bin.length < 2 ^ 31

/-- The reshape in machine integers with given type, algorithm, block size and batch size moves the data from `bin` to
`bout`: the objects can be made, `size_workspace` is at least the number of entries of both boxes, and a call with
arrays of sufficient size succeeds, whatever the data and the order of the messages, and puts every entry at its place. -/
def MovesEveryIndexM (t : IndexType) (alg : Alg) (bin bout : List Box) (stride nb : Nat) : Prop :=
  ∃ shs, shapersOfM t alg bin bout = .ok shs ∧ shs.length = bin.length ∧
    (∀ (r : Nat) sh a b, shs[r]? = some (some sh) → bin[r]? = some a → bout[r]? = some b →
      ∃ n : Int, sh.sizeWorkspaceM t = .ok n ∧ (a.points.card + b.points.card : Int) ≤ n ∧ n < 2 ^ 64) ∧
    ∀ {α : Type} (done : Nat → List Nat) (inplace : Nat → Bool) (mems : List (Arrays α)) (G : Nat → A3 Int → α),
      ArrivalOrder bin bout done → Ready bin bout nb (mems.map Arrays.src) (mems.map Arrays.dst) G →
      (∀ (r : Nat) sh m n, shs[r]? = some (some sh) → mems[r]? = some m → sh.sizeWorkspaceM t = .ok n → nb * n ≤ m.ws.length) →
      ∃ dsts, reshapeAllM t stride nb done inplace shs mems = .ok dsts ∧
        Distributed bout nb (current shs (mems.map Arrays.src) dsts) G ∧
        ∀ (r : Nat) m b, mems[r]? = some m → bout[r]? = some b → ∃ d, dsts[r]? = some d ∧ d.length = m.dst.length ∧
          ∀ a, (nb * b.points.card : Int) ≤ a → rd d a = rd m.dst a

theorem IntSizes.room {t : IndexType} {alg : Alg} {stride nb : Nat} (h : Redistribution bin bout w) (hstr : 0 < stride)
    (sz : IntSizes t bin bout stride nb) (pad : alg = .alltoall → PaddedFits bin bout nb) : CallRoom alg bin bout stride nb := by
  have hi : ∀ r, r < bin.length → boxAt bin r ∈ bin ++ bout := fun r hr => List.mem_append_left _ (boxAt_mem hr)
  have ho : ∀ r, r < bin.length → boxAt bout r ∈ bin ++ bout := fun r hr =>
    List.mem_append_right _ (boxAt_mem (by rw [h.length]; exact hr))
  refine ⟨?_, ?_, ?_, ?_, ?_, ?_⟩
  · intro r hr; have := (sz.boxes _ (hi r hr)).1; rw [Box.count_eq_card]; omega
  · intro r hr; have := (sz.boxes _ (ho r hr)).1; rw [Box.count_eq_card]; omega
  · intro r hr; have := (sz.boxes _ (ho r hr)).1; rw [Box.count_eq_card]; omega
  · intro r hr; have := (sz.boxes _ (hi r hr)).2; rw [Box.count_eq_card]; exact_mod_cast this
  · intro r hr; have := (sz.boxes _ (ho r hr)).2; rw [Box.count_eq_card]; exact_mod_cast this
  · intro e
    obtain ⟨M, h1, h2, h3⟩ := pad e
    refine ⟨M, ?_, by omega, by omega, by exact_mod_cast h3⟩
    intro a ha b hb
    rw [Box.count_eq_card, collide_points]
    exact_mod_cast h1 a ha b hb

/-- **C71**, what is proved of it: with sizes in the range of `IntSizes` (and of `PaddedFits` for `alltoall`) the reshape
in machine integers does what C24 - C26 say of the reshape in unbounded integers.  Missing: sizes that fit in the type of
the coordinates but not in that range, see the theorems below. -/
theorem C71_partial (h : Redistribution bin bout w) (t : IndexType) (alg : Alg) {stride nb : Nat} (hstr : 0 < stride)
    (sz : IntSizes t bin bout stride nb) (pad : alg = .alltoall → PaddedFits bin bout nb) :
    MovesEveryIndexM t alg bin bout stride nb := by
  have room := sz.room h hstr pad
  obtain ⟨shs, hshs, hsl, hmv⟩ := moves_every_index h alg
  have hget : ∀ {r : Nat}, r < bin.length → bin[r]? = some (boxAt bin r) ∧ bout[r]? = some (boxAt bout r) := fun hr =>
    ⟨boxAt_get hr, boxAt_get (by rw [h.length]; exact hr)⟩
  have hws : ∀ {r : Nat} {sh}, shs[r]? = some (some sh) → sh.sizeWorkspaceM t = .ok sh.sizeWorkspace := fun hsh =>
    sizeWorkspaceM_eq t h room sz.ranks (fun r hr => by
      have := sz.both r _ _ (hget hr).1 (hget hr).2
      rw [Box.count_eq_card, Box.count_eq_card]; exact this) hshs hsh
  refine ⟨shs, ?_, hsl, ?_, ?_⟩
  · rw [shapersOfM_eq t h alg room.inOne room.outOne]; exact hshs
  · intro r sh a b hsh ha hb
    have hr := (List.getElem?_eq_some_iff.1 ha).1
    have e1 := hget hr
    rw [ha, hb] at e1
    refine ⟨_, hws hsh, ?_, ?_⟩
    · have := ws_ge h alg hshs hsh
      rw [Box.count_eq_card, Box.count_eq_card, ← Option.some.inj e1.1, ← Option.some.inj e1.2] at this
      exact this
    · have hs := hws hsh
      cases sh <;> unfold Shaper.sizeWorkspaceM at hs <;> simp only [bind, Except.bind] at hs
      all_goals
        repeat' split at hs
      all_goals first
        | cases hs
        | (rw [← Except.ok.inj hs]; exact Int.emod_lt_of_pos _ (by decide))
  · intro α done inplace mems G hd hr hw
    rw [reshapeAllM_eq t h room hshs]
    exact hmv nb stride done inplace mems G hstr hd hr (fun r sh m hsh hm => hw r sh m _ hsh hm (hws hsh))

/-! ## The sizes of the boxes fit, but the call overflows -/

theorem packBatches_end {t : IndexType} {p : PackPlan} {src inSize step : Int} : ∀ (l : List Nat) (o : Int)
    {r : List (Int × Int) × Int}, packBatches t p src inSize step l o = .ok r → o < 2 ^ 31 →
    r.2 = o + l.length * step ∧ r.2 < 2 ^ 31
  | [], o, r, h, ho => by
    cases h
    exact ⟨by simp, ho⟩
  | j :: l, o, r, h, ho => by
    unfold packBatches at h
    simp only [bind, Except.bind] at h
    split at h
    · cases h
    split at h
    · cases h
    split at h
    · cases h
    rename_i v hv
    split at h
    · cases h
    rename_i q hq
    cases h
    have hv' : v = o + step ∧ v < 2 ^ 31 := by
      unfold intArith IndexType.arith at hv
      split at hv
      · rename_i hf
        cases hv
        exact ⟨rfl, (IndexType.fits_iff.1 hf).2⟩
      · cases hv
    obtain ⟨e1, e2⟩ := packBatches_end l v hq hv'.2
    refine ⟨?_, e2⟩
    rw [e1, hv'.1, List.length_cons]
    push_cast
    ring

theorem allToAllPackM_end {t : IndexType} {nb : Nat} {inSize E : Int} : ∀ (l : List (Int × PackPlan)) (o : Int)
    {m : List (Int × Int)}, allToAllPackM t nb inSize E l o = .ok m → o < 2 ^ 31 → o + nb * E * l.length < 2 ^ 31
  | [], o, m, _, ho => by simpa using ho
  | e :: l, o, m, h, ho => by
    unfold allToAllPackM at h
    have next : ∀ {o' : Int} {m'}, allToAllPackM t nb inSize E l o' = .ok m' → o' = o + nb * E → o' < 2 ^ 31 →
        o + nb * E * (e :: l).length < 2 ^ 31 := by
      intro o' m' h1 h2 h3
      have := allToAllPackM_end l o' h1 h3
      rw [h2] at this
      rw [List.length_cons]
      push_cast
      linarith
    split at h
    · simp only [bind, Except.bind] at h
      split at h
      · cases h
      rename_i r hr
      split at h
      · cases h
      rename_i m' hm'
      obtain ⟨e1, e2⟩ := packBatches_end _ _ hr ho
      rw [List.length_range] at e1
      exact next hm' e1 e2
    · simp only [bind, Except.bind, intArith, IndexType.arith] at h
      split at h
      · cases h
      rename_i c hc
      split at hc
      · cases hc
        split at h
        · cases h
        rename_i o' ho'
        split at ho'
        · rename_i hf
          cases ho'
          exact next h rfl (IndexType.fits_iff.1 hf).2
        · cases ho'
      · cases hc

/-- A call of `alltoall` without overflow: the whole padded buffer has less than `2 ^ 31` entries. -/
theorem AllToAll.jobM_bound {t : IndexType} {o : AllToAll} {direct : Bool} {stride nb : Nat} {j : Job}
    (h : o.jobM t direct stride nb = .ok j) : nb * o.numEntries * o.packplan.length < 2 ^ 31 := by
  unfold AllToAll.jobM at h
  simp only [bind, Except.bind] at h
  split at h
  · cases h
  split at h
  · cases h
  rename_i p hp
  have := allToAllPackM_end _ _ hp (by decide)
  omega

/-- 3 ranks, 1022, 1 and 1 planes of 1024 x 1024 in the last direction. -/
def wideA : List Box := [⟨⟨0, 0, 0⟩, ⟨1023, 1023, 1021⟩, ⟨0, 1, 2⟩⟩, ⟨⟨0, 0, 1022⟩, ⟨1023, 1023, 1022⟩, ⟨0, 1, 2⟩⟩,
  ⟨⟨0, 0, 1023⟩, ⟨1023, 1023, 1023⟩, ⟨0, 1, 2⟩⟩]
/-- The same in the second direction. -/
def wideB : List Box := [⟨⟨0, 0, 0⟩, ⟨1023, 1021, 1023⟩, ⟨0, 1, 2⟩⟩, ⟨⟨0, 1022, 0⟩, ⟨1023, 1022, 1023⟩, ⟨0, 1, 2⟩⟩,
  ⟨⟨0, 1023, 0⟩, ⟨1023, 1023, 1023⟩, ⟨0, 1, 2⟩⟩]
def wideW : Box := ⟨⟨0, 0, 0⟩, ⟨1023, 1023, 1023⟩, ⟨0, 1, 2⟩⟩

theorem redistribution_plain {bin bout : List Box} {w : Box} (h0 : bin ≠ []) (hl : bout.length = bin.length)
    (ti : Tiles bin w) (tb : Tiles bout w) (oi : ∀ b ∈ bin, b.order = ⟨0, 1, 2⟩) (oo : ∀ b ∈ bout, b.order = ⟨0, 1, 2⟩) :
    Redistribution bin bout w :=
  ⟨h0, hl, ti, tb,
    ⟨⟨0, 1, 2⟩, by decide, fun b hb _ => oi b hb, fun b hb => oi b (List.mem_of_mem_head? hb), fun b hb => by rw [oi b hb]; decide⟩,
    ⟨⟨0, 1, 2⟩, by decide, fun b hb _ => oo b hb, fun b hb => oo b (List.mem_of_mem_head? hb), fun b hb => by rw [oo b hb]; decide⟩⟩

theorem wide_redistribution : Redistribution wideA wideB wideW :=
  redistribution_plain (by decide) rfl ((worldComplete_iff_tiles (boxes := wideA) (w := wideW) (by decide)).1 (by decide +kernel)).2
    ((worldComplete_iff_tiles (boxes := wideB) (w := wideW) (by decide)).1 (by decide +kernel)).2 (by decide) (by decide)

theorem intSizes_of {t : IndexType} {stride nb : Nat} (hl : bin.length < 2 ^ 31)
    (hb : ∀ b ∈ bin ++ bout, b.count + stride ≤ 2 ^ 31 ∧ nb * b.count < 2 ^ 31)
    (h2 : ∀ x ∈ bin.zip bout, x.1.count + x.2.count < t.bound) : IntSizes t bin bout stride nb := by
  refine ⟨hl, ?_, ?_⟩
  · intro b hbm
    have := hb b hbm
    rw [Box.count_eq_card] at this
    exact ⟨by exact_mod_cast this.1, by exact_mod_cast this.2⟩
  · intro r a b ha hbb
    have := h2 (a, b) (List.mem_of_getElem? (i := r) (by rw [List.getElem?_zip_eq_some]; exact ⟨ha, hbb⟩))
    rw [Box.count_eq_card, Box.count_eq_card] at this
    exact this

/-- The sizes of `C71_partial` for these boxes, with the block size of the code. -/
theorem wide_sizes : IntSizes .int wideA wideB 16 1 :=
  intSizes_of (by decide) (by decide +kernel) (by decide +kernel)

/-- So `alltoallv` and the point-to-point algorithms move 2 ^ 30 entries on 3 ranks. -/
example : MovesEveryIndexM .int .alltoallv wideA wideB 16 1 ∧ MovesEveryIndexM .int .p2p wideA wideB 16 1 :=
  ⟨C71_partial wide_redistribution _ _ (by decide) wide_sizes (fun h => nomatch h),
    C71_partial wide_redistribution _ _ (by decide) wide_sizes (fun h => nomatch h)⟩

/-- The small example of C24 - C26, `alltoall` with 5 batches. -/
example : MovesEveryIndexM .longLong .alltoall exA exB 16 5 :=
  C71_partial ex_redistribution _ _ (by decide) (intSizes_of (by decide) (by decide +kernel) (by decide +kernel))
    (fun _ => ⟨24, fun a ha b _ => le_trans (Finset.card_le_card Finset.inter_subset_left) (by
      have : ∀ a ∈ exA, a.count ≤ 24 := by decide +kernel
      have := this a ha
      rw [Box.count_eq_card] at this
      exact_mod_cast this), by decide, by decide⟩)

/-- The first rank of the example above has the padded messages of `alltoall`. -/
theorem wide_object (t : IndexType) : ∃ shs o l, shapersOfM t .alltoall wideA wideB = .ok shs ∧
    shs = some (.alltoall true o) :: l ∧ o.numEntries = 1024 * 1022 * 1022 ∧ o.packplan.length = 3 := by
  have : (match shapersOfM t .alltoall wideA wideB with
      | .ok (some (.alltoall true o) :: _) => decide (o.numEntries = 1024 * 1022 * 1022 ∧ o.packplan.length = 3)
      | _ => false) = true := by cases t <;> decide +kernel
  split at this
  · rename_i o l h
    exact ⟨_, o, l, h, rfl, (of_decide_eq_true this).1, (of_decide_eq_true this).2⟩
  · cases this

/-- **C71** is false for `alltoall`: the boxes of each rank, and their sum, have less than `2 ^ 31` entries, so that the
other algorithms move the data (`C71_partial`), but the padded buffer of `alltoall` has more than `2 ^ 31` entries and no
call succeeds, with `int` and with `long long`. -/
theorem C71_false_alltoall (t : IndexType) : Redistribution wideA wideB wideW ∧ IntSizes t wideA wideB 16 1 ∧
    ∃ shs, shapersOfM t .alltoall wideA wideB = .ok shs ∧
      ∀ {α : Type} (stride : Nat) (done : Nat → List Nat) (inplace : Nat → Bool) (mems : List (Arrays α)) (dsts : List (List α)),
        reshapeAllM t stride 1 done inplace shs mems ≠ .ok dsts := by
  refine ⟨wide_redistribution, ⟨wide_sizes.ranks, wide_sizes.boxes, fun r a b ha hb =>
    lt_of_lt_of_le (wide_sizes.both r a b ha hb) (IndexType.bound_ge t)⟩, ?_⟩
  obtain ⟨shs, o, l, h1, rfl, h2, h3⟩ := wide_object t
  refine ⟨_, h1, ?_⟩
  intro α stride done inplace mems dsts h
  unfold reshapeAllM at h
  simp only [mapRes, Shaper.jobM] at h
  cases hj : o.jobM t true stride 1 with
  | error e => rw [hj] at h; cases h
  | ok j =>
    have := AllToAll.jobM_bound hj
    rw [h2, h3] at this
    norm_num at this

/-- 2 ranks with `2 ^ 30` entries each. -/
def halfA : List Box := [⟨⟨0, 0, 0⟩, ⟨1023, 1023, 1023⟩, ⟨0, 1, 2⟩⟩, ⟨⟨0, 0, 1024⟩, ⟨1023, 1023, 2047⟩, ⟨0, 1, 2⟩⟩]
def halfB : List Box := [⟨⟨0, 0, 0⟩, ⟨1023, 511, 2047⟩, ⟨0, 1, 2⟩⟩, ⟨⟨0, 512, 0⟩, ⟨1023, 1023, 2047⟩, ⟨0, 1, 2⟩⟩]
def halfW : Box := ⟨⟨0, 0, 0⟩, ⟨1023, 1023, 2047⟩, ⟨0, 1, 2⟩⟩

theorem half_redistribution : Redistribution halfA halfB halfW :=
  redistribution_plain (by decide) rfl ((worldComplete_iff_tiles (boxes := halfA) (w := halfW) (by decide)).1 (by decide +kernel)).2
    ((worldComplete_iff_tiles (boxes := halfB) (w := halfW) (by decide)).1 (by decide +kernel)).2 (by decide) (by decide)

/-- The outcome of `size_workspace` of the first rank. -/
def firstWorkspace (t : IndexType) (alg : Alg) (bin bout : List Box) : Option (Res Int) :=
  match shapersOfM t alg bin bout with
  | .ok (some sh :: _) => some (sh.sizeWorkspaceM t)
  | _ => none

/-- **C71** is false for `int` in `size_workspace`: the boxes have `2 ^ 30` entries each, half of what an `int` counts; the
sum of the two sizes is an `int` and overflows.  The same with `long long` is `2 ^ 31`. -/
theorem C71_false_workspace : Redistribution halfA halfB halfW ∧ (∀ b ∈ halfA ++ halfB, b.points.card = 2 ^ 30) ∧
    ∀ alg ∈ [Alg.alltoallv, .p2p, .p2pPlined], firstWorkspace .int alg halfA halfB = some (.error .ub) ∧
      firstWorkspace .longLong alg halfA halfB = some (.ok (2 ^ 31)) := by
  refine ⟨half_redistribution, ?_, by decide +kernel⟩
  intro b hb
  have : ∀ b ∈ halfA ++ halfB, b.count = 2 ^ 30 := by decide +kernel
  have := this b hb
  rw [Box.count_eq_card] at this
  exact_mod_cast this

/-- The same on one rank that only changes the order of its `2 ^ 30` entries. -/
theorem C71_false_transpose :
    firstWorkspace .int .alltoallv [⟨⟨0, 0, 0⟩, ⟨1023, 1023, 1023⟩, ⟨0, 1, 2⟩⟩] [⟨⟨0, 0, 0⟩, ⟨1023, 1023, 1023⟩, ⟨2, 1, 0⟩⟩] =
      some (.error .ub) := by decide +kernel

/-- 2 ranks with `2 ^ 31` entries each. -/
def fullA : List Box := [⟨⟨0, 0, 0⟩, ⟨2047, 2047, 511⟩, ⟨0, 1, 2⟩⟩, ⟨⟨0, 0, 512⟩, ⟨2047, 2047, 1023⟩, ⟨0, 1, 2⟩⟩]
def fullB : List Box := [⟨⟨0, 0, 0⟩, ⟨2047, 1023, 1023⟩, ⟨0, 1, 2⟩⟩, ⟨⟨0, 1024, 0⟩, ⟨2047, 2047, 1023⟩, ⟨0, 1, 2⟩⟩]
def fullW : Box := ⟨⟨0, 0, 0⟩, ⟨2047, 2047, 1023⟩, ⟨0, 1, 2⟩⟩

theorem full_redistribution : Redistribution fullA fullB fullW :=
  redistribution_plain (by decide) rfl ((worldComplete_iff_tiles (boxes := fullA) (w := fullW) (by decide)).1 (by decide +kernel)).2
    ((worldComplete_iff_tiles (boxes := fullB) (w := fullW) (by decide)).1 (by decide +kernel)).2 (by decide) (by decide)

/-- The outcome of making the objects is an overflow. -/
def constructionOverflows (t : IndexType) (alg : Alg) (bin bout : List Box) : Bool :=
  match shapersOfM t alg bin bout with
  | .error .ub => true
  | _ => false

/-- **C71** is false for `long long`, in which the sizes of these boxes fit easily: with `2 ^ 31` entries on each rank the sum of the messages, an `int`, overflows when the objects are made; with `alltoall` the objects are made and
`size_workspace` overflows. -/
theorem C71_false_longLong : Redistribution fullA fullB fullW ∧ (∀ b ∈ fullA ++ fullB, b.points.card = 2 ^ 31) ∧
    (∀ alg ∈ [Alg.alltoallv, .p2p, .p2pPlined], constructionOverflows .longLong alg fullA fullB = true) ∧
    firstWorkspace .longLong .alltoall fullA fullB = some (.error .ub) := by
  refine ⟨full_redistribution, ?_, by decide +kernel, by decide +kernel⟩
  intro b hb
  have : ∀ b ∈ fullA ++ fullB, b.count = 2 ^ 31 := by decide +kernel
  have := this b hb
  rw [Box.count_eq_card] at this
  exact_mod_cast this

end Verif
