import Verif.Props.FloatCalls
import Verif.PlanDirs

/-!
# Property C78: which calls give the same bits
-/

namespace Verif
open Stock Finset

theorem along_line {α β : Type} {w : Box} {d : Fin 3} {t : List α → Nat → β} {g g' : A3 Int → α} {p : A3 Int}
    (h : ∀ i < w.extent d, g (p.set d (w.low.get d + i)) = g' (p.set d (w.low.get d + i))) : along w d t g p = along w d t g' p := by
  unfold along
  congr 1
  unfold lineOf
  refine List.map_congr_left fun i hi => ?_
  rw [List.mem_range] at hi
  exact h i hi

theorem alongAll_line {α : Type} {w : Box} {t : List α → Nat → α} : ∀ (ds : List (Fin 3)) {g g' : A3 Int → α}, (∀ p ∈ w, g p = g' p) →
    ∀ p ∈ w, alongAll w t ds g p = alongAll w t ds g' p := by
  intro ds
  induction ds with
  | nil => exact fun h => h
  | cons d ds ih =>
    intro g g' h p hp
    exact ih (fun p hp => along_line fun i hi => h _ (set_mem hp d hi)) p hp

section
variable {C R : Type} [Inhabited C] [Inhabited R] [Zero C] [One C] [Add C] [Sub C] [Mul C] [Neg C] [Div C] [NatCast C] {M : Numbers C R}
  {W W' : World C R} {mode : Mode} {fwd : Bool} {nb nb' : Nat} {inplace inplace' : Nat → Bool} {s : Scaling} {ob ob' : Object} {d : Fin 3}
  {bin bout bin' bout' : List Box} {wi wo wo' : Box} {m0s m0s' : List (Mem C R)} {opts opts' : Opts} {G G' : Field C R} {f : ℝ → C → C} {g : ℝ → R → R}
  {junk junk' : Tag → Int × Int → Arr C × (Nat → Arr C)} {inp inp' : Tag → Int × Int → Arr C}

theorem isReal_val {F F' : Field C R} {j j' : Nat} {p p' : A3 Int} (h : F.val j p = F'.val j' p') : F.isReal = F'.isReal := by
  cases F <;> cases F' <;> first | rfl | cases h

/-- The values of a call on one entry of a batch follow from the input of this entry. -/
theorem field_congr {w : Box} {dirs : A3 (Fin 3)} {j j' : Nat} (h : ∀ p ∈ w, G.val j p = G'.val j' p) {p : A3 Int} (hp : p ∈ w) :
    (M.field w dirs mode fwd G).val j p = (M.field w dirs mode fwd G').val j' p := by
  have key : ∀ (c c' : Nat → A3 Int → C), (∀ p ∈ w, c j p = c' j' p) →
      chain w (M.fft fwd) (fun x => [dirs x]) fwd c 3 j p = chain w (M.fft fwd) (fun x => [dirs x]) fwd c' 3 j' p :=
    fun c c' h => alongAll_line _ h p hp
  unfold Numbers.field fieldC2C
  have h0 : ¬ (mode = .r2c ∧ (3 : Fin 4) = 0) := by rintro ⟨-, h⟩; cases h
  simp only [h0, if_false]
  cases G with
  | inl x =>
    cases G' with
    | inl x' =>
      have hc : ∀ p ∈ w, x j p = x' j' p := fun p hp => Sum.inl_injective (h p hp)
      simp only
      split
      · simp only [Field.val]
        rw [key x x' hc]
      · simp only [Field.val]
        rw [key x x' hc]
    | inr x' => cases h p hp
  | inr x =>
    cases G' with
    | inl x' => cases h p hp
    | inr x' =>
      have hc : ∀ p ∈ w, x j p = x' j' p := fun p hp => Sum.inr_injective (h p hp)
      have hc' : ∀ p ∈ w, M.cast (x j p) = M.cast (x' j' p) := fun p hp => by rw [hc p hp]
      simp only
      split
      · simp only [Field.val]
        exact congrArg (fun z => Sum.inr (M.re z)) (key (fun j p => M.cast (x j p)) (fun j p => M.cast (x' j p)) hc')
      · simp only [Field.val]
        exact congrArg Sum.inl (key (fun j p => M.cast (x j p)) (fun j p => M.cast (x' j p)) hc')

theorem scaledBy_congr {F F' : Field C R} {n : Int} {j j' : Nat} {p : A3 Int} (h : F.val j p = F'.val j' p) :
    (scaledBy f g s n F).val j p = (scaledBy f g s n F').val j' p := by
  unfold scaledBy
  split
  · exact h
  · cases F with
    | inl x =>
      cases F' with
      | inl x' => exact congrArg (fun z => Sum.inl (f _ z)) (Sum.inl_injective h)
      | inr x' => cases h
    | inr x =>
      cases F' with
      | inl x' => cases h
      | inr x' => exact congrArg (fun z => Sum.inr (g _ z)) (Sum.inr_injective h)

/-- **C78.**  Two calls of stock `fft3d` objects for the same world whose plans transform the directions in the same order.  All else may
differ: the number of ranks, the boxes and their storage order, the options, the workspaces and what they hold, the batches, the order of
the messages, in place or not.  Whatever the arithmetic is, entries of the batches with the same input have the same bits in the
output. -/
theorem C78_bits (S : StockC2C bin bout wi wo opts ob) (S' : StockC2C bin' bout' wi wo' opts' ob') (hd : ob.plan.dirs = ob'.plan.dirs)
    (hm : ModeOk mode fwd none) (hG : G.isReal = decide (mode = .r2c)) (hG' : G'.isReal = decide (mode = .r2c))
    (ha : CallArrays (srcBoxes fwd bin bout) (dstBoxes fwd bin bout) (decide (mode = .r2c)) (decide (mode = .c2r)) (ob.sizeWorkspace noWork) nb inplace m0s G)
    (ha' : CallArrays (srcBoxes fwd bin' bout') (dstBoxes fwd bin' bout') (decide (mode = .r2c)) (decide (mode = .c2r)) (ob'.sizeWorkspace noWork) nb' inplace' m0s' G')
    (hW : WorldOk W ob.plan fwd) (hW' : WorldOk W' ob'.plan fwd) (hnb : 0 < nb) (hnb' : 0 < nb')
    (hin : ∀ r, r < bin.length → inplace r = true → mode = .same) (hin' : ∀ r, r < bin'.length → inplace' r = true → mode = .same)
    (hfirst : mode = .r2c ∨ SourceHolds (srcBoxes fwd bin bout) inplace) (hfirst' : mode = .r2c ∨ SourceHolds (srcBoxes fwd bin' bout') inplace') :
    ∃ ms ms' F F', ob.call (M.kernel junk inp) f g W mode fwd nb inplace s m0s = .ok ms ∧
      ob'.call (M.kernel junk' inp') f g W' mode fwd nb' inplace' s m0s' = .ok ms' ∧
      Outcome (dstBoxes fwd bin bout) nb m0s ms F ∧ Outcome (dstBoxes fwd bin' bout') nb' m0s' ms' F' ∧
      ∀ j j', (∀ p ∈ wi, G.val j p = G'.val j' p) → ∀ p ∈ wi, F.val j p = F'.val j' p := by
  obtain ⟨ms, h1, h2⟩ := number_call (M := M) (junk := junk) (inp := inp) (s := s) (f := f) (g := g) S hm hG ha hW hnb hin hfirst
  obtain ⟨ms', h1', h2'⟩ := number_call (M := M) (junk := junk') (inp := inp') (s := s) (f := f) (g := g) S' hm hG' ha' hW' hnb' hin' hfirst'
  refine ⟨ms, ms', _, _, h1, h1', h2, h2', fun j j' h p hp => ?_⟩
  rw [hd]
  exact scaledBy_congr (field_congr h hp)

/-- **C78**: two objects for the same boxes whose options agree in `use_pencils` and `use_subcomm`/`use_num_subranks`; the algorithm
and `use_reorder` are free.  If entry `j` of the first input has the bits of entry `j'` of the second one, the same holds for the
outputs. -/
theorem C78_options (S : StockC2C bin bout wi wo opts ob) (S' : StockC2C bin bout wi wo opts' ob') (hu : opts.usePencils = opts'.usePencils)
    (hn : opts.numSub = opts'.numSub) (hm : ModeOk mode fwd none)
    (ha : HasArrays (srcBoxes fwd bin bout) (dstBoxes fwd bin bout) (decide (mode = .r2c)) (decide (mode = .c2r)) (ob.sizeWorkspace noWork) nb inplace m0s)
    (ha' : HasArrays (srcBoxes fwd bin bout) (dstBoxes fwd bin bout) (decide (mode = .r2c)) (decide (mode = .c2r)) (ob'.sizeWorkspace noWork) nb' inplace' m0s')
    (hW : WorldOk W ob.plan fwd) (hW' : WorldOk W' ob'.plan fwd) (hnb : 0 < nb) (hnb' : 0 < nb')
    (hin : ∀ r, inplace r = true → mode = .same) (hin' : ∀ r, inplace' r = true → mode = .same)
    (hfirst : mode = .r2c ∨ SourceHolds (srcBoxes fwd bin bout) inplace) (hfirst' : mode = .r2c ∨ SourceHolds (srcBoxes fwd bin bout) inplace') :
    ∃ ms ms', ob.call (M.kernel junk inp) f g W mode fwd nb inplace s m0s = .ok ms ∧
      ob'.call (M.kernel junk' inp') f g W' mode fwd nb' inplace' s m0s' = .ok ms' ∧
      ∀ j j', j < nb → j' < nb' → SameInput (srcBoxes fwd bin bout) inplace m0s j inplace' m0s' j' → SameOutput (dstBoxes fwd bin bout) ms j ms' j' := by
  have ho := src_order S.geo fwd
  have ht := src_tiles S.geo fwd
  have hreal : ∀ i : Nat → Bool, (∀ r, i r = true → mode = .same) → ∀ r, i r = true → decide (mode = .r2c) = decide (mode = .c2r) := by
    intro i hi r hr
    rw [hi r hr]
    rfl
  obtain ⟨G, hG, hc⟩ := ha.values ht ho (fun r _ h => hreal _ hin r h)
  obtain ⟨G', hG', hc'⟩ := ha'.values ht ho (fun r _ h => hreal _ hin' r h)
  obtain ⟨hp, -⟩ := makeFft3d_ok S.geo S.made
  obtain ⟨hp', -⟩ := makeFft3d_ok S'.geo S'.made
  have hd : ob.plan.dirs = ob'.plan.dirs := planOperations_dirs (opts := Backend.stock.setOptions opts) (opts' := Backend.stock.setOptions opts') hu hn hp hp'
  obtain ⟨ms, ms', F, F', h1, h1', h2, h2', h3⟩ := C78_bits (M := M) (junk := junk) (inp := inp) (junk' := junk') (inp' := inp') (s := s) (f := f) (g := g) S S' hd hm hG hG' hc hc'
    hW hW' hnb hnb' (fun r _ h => hin r h) (fun r _ h => hin' r h) hfirst hfirst'
  refine ⟨ms, ms', h1, h1', fun j j' hj hj' hsame r m m' hm hm' a h0 ha1 => ?_⟩
  exact h2.entries h2' (dst_tiles S.geo fwd) (dst_order S.geo fwd) (by rw [hc.ranks, src_length S.geo, dst_length S.geo]) hj hj'
    (h3 j j' (same_values hc hc' ht ho hj hj' hsame)) hm hm' h0 ha1

/-! ## `fft3d_r2c` -/

theorem half_line (hc : ComplexWorld wi wo (some d)) {p : A3 Int} (hp : p ∈ wi) {i : Nat} (hi : i < wo.extent d) : p.set d (wo.low.get d + i) ∈ wo := by
  rw [Box.mem_def] at hp ⊢
  intro e
  by_cases he : e = d
  · subst he
    rw [A3.get_set_self]
    unfold Box.extent at hi
    omega
  · rw [A3.get_set_ne _ _ he]
    have h3 := hc.other he
    have := hp e
    omega

theorem fieldR2C_congr (geo : Geometry bin bout (some d) wi wo) {dirs : A3 (Fin 3)} (h0 : dirs.x = d) {t : Bool → List C → Nat → C} {tr : List R → Nat → C}
    {tc : Nat → List C → Nat → R} {j j' : Nat} (hr : G.isReal = fwd) (h : ∀ p ∈ (if fwd then wi else wo), G.val j p = G'.val j' p)
    {p : A3 Int} (hp : p ∈ (if fwd then wo else wi)) :
    (fieldR2C wi wo t tr tc dirs G 3).val j p = (fieldR2C wi wo t tr tc dirs G' 3).val j' p := by
  cases G with
  | inr x =>
    cases fwd with
    | false => cases hr
    | true =>
      simp only [if_true] at h hp
      cases G' with
      | inl x' => cases h p (half_sub geo hp)
      | inr x' =>
        refine congrArg Sum.inl (along_line fun i hi => along_line fun i' hi' => along_line fun i'' hi'' => ?_)
        exact Sum.inr_injective (h _ (set_mem (half_sub geo (set_mem (set_mem hp _ hi) _ hi')) _ hi''))
  | inl x =>
    cases fwd with
    | true => cases hr
    | false =>
      simp only [Bool.false_eq_true, if_false] at h hp
      cases G' with
      | inr x' =>
        have hpos : 0 < wo.extent d := by rw [half_extent geo]; omega
        cases h _ (half_line geo.complex hp hpos)
      | inl x' =>
        refine congrArg Sum.inr (along_line fun i hi => along_line fun i' hi' => along_line fun i'' hi'' => ?_)
        refine Sum.inl_injective (h _ (set_mem (set_mem ?_ _ hi') _ hi''))
        rw [h0] at hi ⊢
        exact half_line geo.complex hp hi

/-- **C78** for the calls of an `fft3d_r2c`. -/
theorem C78_options_r2c (S : StockR2C bin bout d wi wo opts ob) (S' : StockR2C bin bout d wi wo opts' ob') (hu : opts.usePencils = opts'.usePencils)
    (hn : opts.numSub = opts'.numSub) (hm : ModeOk mode fwd (some d))
    (ha : HasArrays (srcBoxes fwd bin bout) (dstBoxes fwd bin bout) (decide (mode = .r2c)) (decide (mode = .c2r)) (ob.sizeWorkspace noWork) nb (fun _ => false) m0s)
    (ha' : HasArrays (srcBoxes fwd bin bout) (dstBoxes fwd bin bout) (decide (mode = .r2c)) (decide (mode = .c2r)) (ob'.sizeWorkspace noWork) nb' (fun _ => false) m0s')
    (hW : WorldOk W ob.plan fwd) (hW' : WorldOk W' ob'.plan fwd) (hnb : 0 < nb) (hnb' : 0 < nb')
    (hfirst : mode = .r2c ∨ SourceHolds (srcBoxes fwd bin bout) fun _ => false)
    (hhalf : mode = .r2c → nb = 1 ∨ ReshapesAfter ob bin.length) (hhalf' : mode = .r2c → nb' = 1 ∨ ReshapesAfter ob' bin.length) :
    ∃ ms ms', ob.call (M.kernel junk inp) f g W mode fwd nb (fun _ => false) s m0s = .ok ms ∧
      ob'.call (M.kernel junk' inp') f g W' mode fwd nb' (fun _ => false) s m0s' = .ok ms' ∧
      ∀ j j', j < nb → j' < nb' → SameInput (srcBoxes fwd bin bout) (fun _ => false) m0s j (fun _ => false) m0s' j' → SameOutput (dstBoxes fwd bin bout) ms j ms' j' := by
  have ho := src_order S.geo fwd
  have ht : Tiles (srcBoxes fwd bin bout) (if fwd then wi else wo) := by
    cases fwd
    · exact S.geo.tilesOut
    · exact S.geo.tilesIn
  have ht' : Tiles (dstBoxes fwd bin bout) (if fwd then wo else wi) := by
    cases fwd
    · exact S.geo.tilesIn
    · exact S.geo.tilesOut
  obtain ⟨G, hG, hc⟩ := ha.values ht ho (fun _ _ h => by cases h)
  obtain ⟨G', hG', hc'⟩ := ha'.values ht ho (fun _ _ h => by cases h)
  obtain ⟨hp, -⟩ := makeFft3dR2C_ok S.geo S.first S.small S.made
  have hd : ob.plan.dirs = ob'.plan.dirs := by
    have e : ∀ {opts ob}, makeFft3dR2C bin bout d opts = .ok ob → planOperations bin bout (some d) opts = .ok ob.plan := by
      intro opts ob h
      unfold makeFft3dR2C at h
      simp only [bind, Except.bind] at h
      split at h
      · cases h
      rename_i p hp
      split at h
      · cases h
      injection h with h
      subst h
      exact hp
    exact planOperations_dirs hu hn (e S.made) (e S'.made)
  have hr : G.isReal = fwd := by
    rw [hG]
    cases mode with
    | same => cases hm.same rfl
    | r2c => rw [hm.forward rfl]; rfl
    | c2r => rw [hm.backward rfl]; rfl
  obtain ⟨ms, h1, h2⟩ := number_call_r2c (M := M) (junk := junk) (inp := inp) (s := s) (f := f) (g := g) S hm hG hc hW hnb hfirst hhalf
  obtain ⟨ms', h1', h2'⟩ := number_call_r2c (M := M) (junk := junk') (inp := inp') (s := s) (f := f) (g := g) S' hm hG' hc' hW' hnb' hfirst hhalf'
  refine ⟨ms, ms', h1, h1', fun j j' hj hj' hsame r m m' hm hm' a h0 ha1 => ?_⟩
  refine h2.entries h2' ht' (dst_order S.geo fwd) (by rw [hc.ranks, src_length S.geo, dst_length S.geo]) hj hj' (fun p hp' => ?_) hm hm' h0 ha1
  rw [hd]
  exact scaledBy_congr (fieldR2C_congr S.geo (hd ▸ hp.dir0 d rfl) hr (same_values hc hc' ht ho hj hj' hsame) hp')

end

/-! ## In floating point -/

section
variable {A : Arith} {W W' : World (Flt A) ℝ} {mode : Mode} {fwd : Bool} {nb nb' : Nat} {inplace inplace' : Nat → Bool} {s : Scaling} {ob ob' : Object}
  {bin bout bin' bout' : List Box} {wi wo wo' : Box} {m0s m0s' : List (Mem (Flt A) ℝ)} {opts opts' : Opts} {d : Fin 3}
  {junk junk' : Tag → Int × Int → Arr (Flt A) × (Nat → Arr (Flt A))} {inp inp' : Tag → Int × Int → Arr (Flt A)}

/-- **C78** in floating point arithmetic. -/
theorem C78_float (S : StockC2C bin bout wi wo opts ob) (S' : StockC2C bin bout wi wo opts' ob') (hu : opts.usePencils = opts'.usePencils)
    (hn : opts.numSub = opts'.numSub) (hm : ModeOk mode fwd none)
    (ha : HasArrays (srcBoxes fwd bin bout) (dstBoxes fwd bin bout) (decide (mode = .r2c)) (decide (mode = .c2r)) (ob.sizeWorkspace noWork) nb inplace m0s)
    (ha' : HasArrays (srcBoxes fwd bin bout) (dstBoxes fwd bin bout) (decide (mode = .r2c)) (decide (mode = .c2r)) (ob'.sizeWorkspace noWork) nb' inplace' m0s')
    (hW : WorldOk W ob.plan fwd) (hW' : WorldOk W' ob'.plan fwd) (hnb : 0 < nb) (hnb' : 0 < nb')
    (hin : ∀ r, inplace r = true → mode = .same) (hin' : ∀ r, inplace' r = true → mode = .same)
    (hfirst : mode = .r2c ∨ SourceHolds (srcBoxes fwd bin bout) inplace) (hfirst' : mode = .r2c ∨ SourceHolds (srcBoxes fwd bin bout) inplace') :
    ∃ ms ms', floatCall A ob junk inp W mode fwd nb inplace s m0s = .ok ms ∧ floatCall A ob' junk' inp' W' mode fwd nb' inplace' s m0s' = .ok ms' ∧
      ∀ j j', j < nb → j' < nb' → SameInput (srcBoxes fwd bin bout) inplace m0s j inplace' m0s' j' → SameOutput (dstBoxes fwd bin bout) ms j ms' j' := by
  have : Inhabited (Flt A) := ⟨0⟩
  obtain ⟨-, -, -, -, -, -, hc, -⟩ := makeFft3d_ok S.geo S.made
  obtain ⟨-, -, -, -, -, -, hc', -⟩ := makeFft3d_ok S'.geo S'.made
  unfold floatCall
  rw [hc, hc']
  exact C78_options (M := stockNumbers A) S S' hu hn hm ha ha' hW hW' hnb hnb' hin hin' hfirst hfirst'

/-- **C78** for an `fft3d_r2c` in floating point arithmetic. -/
theorem C78_float_r2c (S : StockR2C bin bout d wi wo opts ob) (S' : StockR2C bin bout d wi wo opts' ob') (hu : opts.usePencils = opts'.usePencils)
    (hn : opts.numSub = opts'.numSub) (hm : ModeOk mode fwd (some d))
    (ha : HasArrays (srcBoxes fwd bin bout) (dstBoxes fwd bin bout) (decide (mode = .r2c)) (decide (mode = .c2r)) (ob.sizeWorkspace noWork) nb (fun _ => false) m0s)
    (ha' : HasArrays (srcBoxes fwd bin bout) (dstBoxes fwd bin bout) (decide (mode = .r2c)) (decide (mode = .c2r)) (ob'.sizeWorkspace noWork) nb' (fun _ => false) m0s')
    (hW : WorldOk W ob.plan fwd) (hW' : WorldOk W' ob'.plan fwd) (hnb : 0 < nb) (hnb' : 0 < nb')
    (hfirst : mode = .r2c ∨ SourceHolds (srcBoxes fwd bin bout) fun _ => false)
    (hhalf : mode = .r2c → nb = 1 ∨ ReshapesAfter ob bin.length) (hhalf' : mode = .r2c → nb' = 1 ∨ ReshapesAfter ob' bin.length) :
    ∃ ms ms', floatCall A ob junk inp W mode fwd nb (fun _ => false) s m0s = .ok ms ∧
      floatCall A ob' junk' inp' W' mode fwd nb' (fun _ => false) s m0s' = .ok ms' ∧
      ∀ j j', j < nb → j' < nb' → SameInput (srcBoxes fwd bin bout) (fun _ => false) m0s j (fun _ => false) m0s' j' → SameOutput (dstBoxes fwd bin bout) ms j ms' j' := by
  have : Inhabited (Flt A) := ⟨0⟩
  obtain ⟨-, -, -, -, -, hc, -⟩ := makeFft3dR2C_ok S.geo S.first S.small S.made
  obtain ⟨-, -, -, -, -, hc', -⟩ := makeFft3dR2C_ok S'.geo S'.first S'.small S'.made
  unfold floatCall
  rw [hc, hc']
  exact C78_options_r2c (M := stockNumbers A) S S' hu hn hm ha ha' hW hW' hnb hnb' hfirst hhalf hhalf'

end

/-- C78: two objects whose options differ in the algorithm and in `use_reorder`; the same entry in two batches. -/
example (g : A3 Int → Flt exDouble) : ∃ ob ob', ∃ (W W' : World (Flt exDouble) ℝ) (m0s m0s' ms ms' : List (Mem (Flt exDouble) ℝ)),
    floatCall exDouble ob (fun _ _ => (fun _ => 0, fun _ _ => 0)) (fun _ _ _ => 0) W .same true 1 (fun _ => false) .full m0s = .ok ms ∧
    floatCall exDouble ob' (fun _ _ => (fun _ => 1, fun _ _ => 1)) (fun _ _ _ => 1) W' .same true 3 (fun _ => false) .full m0s' = .ok ms' ∧
    SameOutput exOut ms 0 ms' 2 := by
  have : Inhabited (Flt exDouble) := ⟨0⟩
  obtain ⟨wi, wo, ob, S⟩ := exObject ⟨true, .alltoallv, true, -1, none⟩
  obtain ⟨wi', wo', ob', S'⟩ := exObject ⟨false, .p2pPlined, true, -1, none⟩
  obtain rfl := Except.ok.inj (S.geo.worldIn.symm.trans S'.geo.worldIn)
  obtain rfl := Except.ok.inj (S.geo.worldOut.symm.trans S'.geo.worldOut)
  obtain ⟨W, hW⟩ := world_exists ob.plan true
  obtain ⟨W', hW'⟩ := world_exists ob'.plan true
  obtain ⟨m0s, h⟩ := arrays_exist exIn exOut false (ob.sizeWorkspace noWork) 1 (.inl fun _ => g : Field (Flt exDouble) ℝ) (src_order S.geo true)
  obtain ⟨m0s', h'⟩ := arrays_exist exIn exOut false (ob'.sizeWorkspace noWork) 3 (.inl fun _ => g : Field (Flt exDouble) ℝ) (src_order S.geo true)
  have hs : SourceHolds exIn fun _ => false := exSource _ (by simp)
  obtain ⟨hp, -, -, -, -, -, hc, -⟩ := makeFft3d_ok S.geo S.made
  obtain ⟨hp', -, -, -, -, -, hc', -⟩ := makeFft3d_ok S'.geo S'.made
  have hd : ob.plan.dirs = ob'.plan.dirs := planOperations_dirs (opts := Backend.stock.setOptions ⟨true, .alltoallv, true, -1, none⟩)
    (opts' := Backend.stock.setOptions ⟨false, .p2pPlined, true, -1, none⟩) rfl rfl hp hp'
  obtain ⟨ms, ms', F, F', h1, h1', h2, h2', h3⟩ := C78_bits (M := stockNumbers exDouble) (s := .full) (f := fun _ => exDouble.timesC (exDouble.factor .full wi.count))
    (g := fun _ => exDouble.times (exDouble.factor .full wi.count)) (mode := .same) (fwd := true)
    (junk := fun _ _ => (fun _ => 0, fun _ _ => 0)) (inp := fun _ _ _ => 0) (junk' := fun _ _ => (fun _ => 1, fun _ _ => 1)) (inp' := fun _ _ _ => 1) S S'
    hd ⟨by simp, by simp, fun _ => rfl⟩ (G := .inl fun _ => g) (G' := .inl fun _ => g) rfl rfl h h' hW hW'
    (by decide) (by decide) (fun _ _ _ => rfl) (fun _ _ _ => rfl) (.inr hs) (.inr hs)
  refine ⟨ob, ob', W, W', m0s, m0s', ms, ms', ?_, ?_, fun r m m' hm hm' a h0 ha1 => ?_⟩
  · unfold floatCall
    rw [hc]
    exact h1
  · unfold floatCall
    rw [hc']
    exact h1'
  · exact h2.entries h2' (dst_tiles S.geo true) (dst_order S.geo true) (by rw [h.ranks]; rfl) (by decide) (by decide) (h3 0 2 fun _ _ => rfl) hm hm' h0 ha1

/-! ## Where the bits differ -/

section
variable {A : Arith}

theorem initTree_two : initTree 2 = .leaf .pow2 2 := by
  have e : fptrFactorHelper 2 = (.pow2, (fptrFactorHelper 2).2) := by
    have : (fptrFactorHelper 2).1 = .pow2 := by decide +kernel
    rw [← this]
  rw [initTree]
  split
  · rename_i h; rw [e] at h; cases h
  · rename_i h; rw [e] at h; cases h
  · rename_i t k h1 h2 h
    rw [e] at h
    cases h
    rfl

/-- The first entry of a transform of the length 2. -/
theorem fft_pair (fwd : Bool) (a b : Flt A) : (stockNumbers A).fft fwd [a, b] 0 = a + b := by
  unfold Numbers.fft
  have h : stockFFT (stockNumbers A).tw [a, b].length fwd [a, b] (fun _ => 0) (fun _ _ => 0) = _ :=
    stockFFT_tree (stockNumbers A).tw (N := 2) (by decide) fwd [a, b] rfl (fun _ => 0) (fun _ _ => 0)
  rw [h]
  simp only
  rw [initTree_two]
  simp only [Tree.fft]
  rw [pow2Helper]
  simp [st]

theorem along_pair {w : Box} {d : Fin 3} (fwd : Bool) (g : A3 Int → Flt A) (hl : w.low.get d = 0) (hh : w.high.get d = 1) (p : A3 Int) (hp : p.get d = 0) :
    along w d ((stockNumbers A).fft fwd) g p = g (p.set d 0) + g (p.set d 1) := by
  unfold along lineOf
  rw [hl, hh, hp]
  exact fft_pair fwd _ _

end

theorem nearest_eq {p : Nat} {x : ℝ} {e m : Int} (h1 : (2 : ℝ) ^ e ≤ |x|) (h2 : |x| < 2 ^ (e + 1)) (h3 : |x / 2 ^ (e - p + 1) - m| < 1 / 2) :
    nearest p x = m * 2 ^ (e - p + 1) := by
  have hx : 0 < |x| := lt_of_lt_of_le (by positivity) h1
  have hl : Int.log 2 |x| = e := by
    apply le_antisymm
    · have := (Int.lt_zpow_iff_log_lt (b := 2) (by norm_num) hx).1 (by exact_mod_cast h2)
      omega
    · exact (Int.zpow_le_iff_le_log (b := 2) (by norm_num) hx).1 (by exact_mod_cast h1)
  unfold nearest
  rw [hl]
  congr 2
  rw [round_eq_iff]
  rw [abs_lt] at h3
  constructor <;> linarith

theorem double_zero : nearest 53 0 = 0 := by simp [nearest]

theorem double_one : nearest 53 1 = 1 := by
  rw [nearest_eq (e := 0) (m := 2 ^ 52)] <;> norm_num

theorem double_big : nearest 53 (2 ^ 60) = 2 ^ 60 := by
  rw [nearest_eq (e := 60) (m := 2 ^ 52)] <;> norm_num

theorem double_minus : nearest 53 (-2 ^ 60) = -2 ^ 60 := by
  rw [nearest_eq (e := 60) (m := -2 ^ 52)] <;> norm_num

theorem double_lost : nearest 53 (2 ^ 60 + 1) = 2 ^ 60 := by
  rw [nearest_eq (e := 60) (m := 2 ^ 52)] <;> norm_num

/-- A real number in `double`. -/
noncomputable def exReal (x : ℝ) : Flt exDouble := Flt.mk x 0

theorem exReal_add (x y : ℝ) : exReal x + exReal y = exReal (nearest 53 (x + y)) := by
  show Flt.mk (nearest 53 (x + y)) (nearest 53 (0 + 0)) = _
  rw [add_zero, double_zero]
  rfl

/-- The input: `2 ^ 60` and `-2 ^ 60` next to each other in the direction 1, and 1 beside the first of them in the direction 2. -/
noncomputable def exInput (p : A3 Int) : Flt exDouble :=
  exReal (if p = ⟨0, 0, 0⟩ then 2 ^ 60 else if p = ⟨0, 1, 0⟩ then -2 ^ 60 else if p = ⟨0, 0, 1⟩ then 1 else 0)

/-- The world of 2 x 2 x 2 indexes. -/
def exCube : Box := ⟨⟨0, 0, 0⟩, ⟨1, 1, 1⟩, ⟨0, 1, 2⟩⟩

theorem exCube_pair (d : Fin 3) (g : A3 Int → Flt exDouble) (p : A3 Int) (hp : p.get d = 0) :
    along exCube d ((stockNumbers exDouble).fft true) g p = g (p.set d 0) + g (p.set d 1) :=
  along_pair true g (by clear hp; revert d; decide) (by clear hp; revert d; decide) p hp

/-- With the directions in the order 0, 1, 2 the two large numbers cancel first. -/
theorem exOrder012 : alongAll exCube ((stockNumbers exDouble).fft true) [0, 1, 2] exInput ⟨0, 0, 0⟩ = exReal 1 := by
  simp only [alongAll, List.foldl]
  rw [exCube_pair 2 _ _ rfl, exCube_pair 1 _ _ rfl, exCube_pair 1 _ _ rfl, exCube_pair 0 _ _ rfl, exCube_pair 0 _ _ rfl, exCube_pair 0 _ _ rfl, exCube_pair 0 _ _ rfl]
  show ((exInput ⟨0, 0, 0⟩ + exInput ⟨1, 0, 0⟩) + (exInput ⟨0, 1, 0⟩ + exInput ⟨1, 1, 0⟩)) + ((exInput ⟨0, 0, 1⟩ + exInput ⟨1, 0, 1⟩) + (exInput ⟨0, 1, 1⟩ + exInput ⟨1, 1, 1⟩)) = _
  simp [exInput, exReal_add, double_zero, double_one, double_big, double_minus]

/-- With the directions in the order 0, 2, 1 the small number is lost. -/
theorem exOrder021 : alongAll exCube ((stockNumbers exDouble).fft true) [0, 2, 1] exInput ⟨0, 0, 0⟩ = exReal 0 := by
  simp only [alongAll, List.foldl]
  rw [exCube_pair 1 _ _ rfl, exCube_pair 2 _ _ rfl, exCube_pair 2 _ _ rfl, exCube_pair 0 _ _ rfl, exCube_pair 0 _ _ rfl, exCube_pair 0 _ _ rfl, exCube_pair 0 _ _ rfl]
  show ((exInput ⟨0, 0, 0⟩ + exInput ⟨1, 0, 0⟩) + (exInput ⟨0, 0, 1⟩ + exInput ⟨1, 0, 1⟩)) + ((exInput ⟨0, 1, 0⟩ + exInput ⟨1, 1, 0⟩) + (exInput ⟨0, 1, 1⟩ + exInput ⟨1, 1, 1⟩)) = _
  simp [exInput, exReal_add, double_zero, double_one, double_big, double_minus, double_lost]

/-- The boxes of four ranks, lines in the direction 0. -/
def exLines0 : List Box := [⟨⟨0, 0, 0⟩, ⟨1, 0, 0⟩, ⟨0, 1, 2⟩⟩, ⟨⟨0, 1, 0⟩, ⟨1, 1, 0⟩, ⟨0, 1, 2⟩⟩, ⟨⟨0, 0, 1⟩, ⟨1, 0, 1⟩, ⟨0, 1, 2⟩⟩, ⟨⟨0, 1, 1⟩, ⟨1, 1, 1⟩, ⟨0, 1, 2⟩⟩]
/-- The boxes of four ranks, lines in the direction 1. -/
def exLines1 : List Box := [⟨⟨0, 0, 0⟩, ⟨0, 1, 0⟩, ⟨0, 1, 2⟩⟩, ⟨⟨1, 0, 0⟩, ⟨1, 1, 0⟩, ⟨0, 1, 2⟩⟩, ⟨⟨0, 0, 1⟩, ⟨0, 1, 1⟩, ⟨0, 1, 2⟩⟩, ⟨⟨1, 0, 1⟩, ⟨1, 1, 1⟩, ⟨0, 1, 2⟩⟩]
/-- The boxes of two ranks, split in the direction 1. -/
def exHalves : List Box := [⟨⟨0, 0, 0⟩, ⟨1, 0, 1⟩, ⟨0, 1, 2⟩⟩, ⟨⟨0, 1, 0⟩, ⟨1, 1, 1⟩, ⟨0, 1, 2⟩⟩]

theorem exCubeObject {bin bout : List Box} {opts : Opts} {dirs : A3 (Fin 3)} (hg : ∃ wi wo, Geometry bin bout none wi wo ∧ wi.low = ⟨0, 0, 0⟩ ∧ wo.low = ⟨0, 0, 0⟩)
    (h1 : findWorld bin = .ok exCube) (h2 : findWorld bout = .ok exCube)
    (hp : (planOperations bin bout none opts).map Plan.dirs = .ok dirs) :
    ∃ ob, StockC2C bin bout exCube exCube opts ob ∧ ob.plan.dirs = dirs := by
  obtain ⟨wi, wo, h, -⟩ := hg
  obtain rfl := Except.ok.inj (h1.symm.trans h.worldIn)
  obtain rfl := Except.ok.inj (h2.symm.trans h.worldOut)
  cases hq : planOperations bin bout none opts with
  | error e => rw [hq] at hp; cases hp
  | ok q =>
    rw [hq] at hp
    obtain ⟨ob, hob, rfl⟩ := C54_object h .stock (fun z h => Family.noConfusion h) hq
    refine ⟨ob, ⟨h, hob, fun d => goodLength_small ?_ ?_⟩, Except.ok.inj hp⟩
    · revert d; decide
    · revert d; decide

/-- The forward call on the example. -/
theorem exCubeCall {bin bout : List Box} {opts : Opts} {ob : Object} (S : StockC2C bin bout exCube exCube opts ob) (hs : SourceHolds bin fun _ => false) :
    ∃ (W : World (Flt exDouble) ℝ) (m0s ms : List (Mem (Flt exDouble) ℝ)) (F : Field (Flt exDouble) ℝ), WorldOk W ob.plan true ∧
      CallArrays bin bout false false (ob.sizeWorkspace noWork) 1 (fun _ => false) m0s (.inl fun _ => exInput) ∧
      floatCall exDouble ob (fun _ _ => (fun _ => 0, fun _ _ => 0)) (fun _ _ _ => 0) W .same true 1 (fun _ => false) .none m0s = .ok ms ∧
      Outcome bout 1 m0s ms F ∧
      F.val 0 ⟨0, 0, 0⟩ = .inl (alongAll exCube ((stockNumbers exDouble).fft true) [ob.plan.dirs.x, ob.plan.dirs.y, ob.plan.dirs.z] exInput ⟨0, 0, 0⟩) := by
  have : Inhabited (Flt exDouble) := ⟨0⟩
  obtain ⟨W, hW⟩ := world_exists ob.plan true
  obtain ⟨m0s, h⟩ := arrays_exist bin bout false (ob.sizeWorkspace noWork) 1 (.inl fun _ => exInput : Field (Flt exDouble) ℝ) (src_order S.geo true)
  obtain ⟨ms, h1, h2⟩ := number_call (M := stockNumbers exDouble) (junk := fun _ _ => (fun _ => 0, fun _ _ => 0)) (inp := fun _ _ _ => 0) (s := .none)
    (f := fun _ => exDouble.timesC (exDouble.factor .none ob.plan.indexCount)) (g := fun _ => exDouble.times (exDouble.factor .none ob.plan.indexCount))
    S (mode := .same) (fwd := true) (G := .inl fun _ => exInput) ⟨by simp, by simp, fun _ => rfl⟩ rfl h hW Nat.one_pos (fun _ _ _ => rfl) (.inr hs)
  exact ⟨W, m0s, ms, _, hW, h, h1, h2, rfl⟩

/-- The two numbers differ. -/
example : exReal 1 ≠ exReal 0 := fun h => one_ne_zero (congrArg Complex.re h)

/-- **C78**: the bits depend on `use_pencils`.  Two objects for the same boxes of four ranks whose options only differ there, in `double`, with the
same input: the first entry of the output is 0 with pencils and 1 with slabs. -/
theorem C78_false_pencils : ∃ (bin bout : List Box) (w : Box) (ob ob' : Object),
    StockC2C bin bout w w ⟨true, .alltoallv, true, -1, none⟩ ob ∧ StockC2C bin bout w w ⟨true, .alltoallv, false, -1, none⟩ ob' ∧
    ∃ (W W' : World (Flt exDouble) ℝ) (m0s m0s' ms ms' : List (Mem (Flt exDouble) ℝ)) (G F F' : Field (Flt exDouble) ℝ) (p : A3 Int),
      WorldOk W ob.plan true ∧ WorldOk W' ob'.plan true ∧
      CallArrays bin bout false false (ob.sizeWorkspace noWork) 1 (fun _ => false) m0s G ∧
      CallArrays bin bout false false (ob'.sizeWorkspace noWork) 1 (fun _ => false) m0s' G ∧
      floatCall exDouble ob (fun _ _ => (fun _ => 0, fun _ _ => 0)) (fun _ _ _ => 0) W .same true 1 (fun _ => false) .none m0s = .ok ms ∧
      floatCall exDouble ob' (fun _ _ => (fun _ => 0, fun _ _ => 0)) (fun _ _ _ => 0) W' .same true 1 (fun _ => false) .none m0s' = .ok ms' ∧
      Outcome bout 1 m0s ms F ∧ Outcome bout 1 m0s' ms' F' ∧ p ∈ w ∧ F.val 0 p = .inl (exReal 0) ∧ F'.val 0 p = .inl (exReal 1) := by
  have hg : ∃ wi wo, Geometry exLines0 exLines1 none wi wo ∧ wi.low = ⟨0, 0, 0⟩ ∧ wo.low = ⟨0, 0, 0⟩ :=
    checked_geometry (by decide) rfl (by decide) (by decide) ⟨_, List.mem_cons_self .., ⟨0, 0, 0⟩, by decide⟩
  have hs : SourceHolds exLines0 fun _ => false := by
    have key : ∀ r, r < exLines0.length → (boxAt exLines0 r).low ∈ boxAt exLines0 r := by decide
    exact fun r hr => .inr ⟨_, key r hr⟩
  obtain ⟨ob, S, hd⟩ := exCubeObject (opts := ⟨true, .alltoallv, true, -1, none⟩) (dirs := ⟨0, 2, 1⟩) hg (by decide) (by decide) (by decide +kernel)
  obtain ⟨ob', S', hd'⟩ := exCubeObject (opts := ⟨true, .alltoallv, false, -1, none⟩) (dirs := ⟨0, 1, 2⟩) hg (by decide) (by decide) (by decide +kernel)
  obtain ⟨W, m0s, ms, F, h1, h2, h3, h4, h5⟩ := exCubeCall S hs
  obtain ⟨W', m0s', ms', F', h1', h2', h3', h4', h5'⟩ := exCubeCall S' hs
  refine ⟨_, _, exCube, ob, ob', S, S', W, W', m0s, m0s', ms, ms', _, F, F', ⟨0, 0, 0⟩, h1, h1', h2, h2', h3, h3', h4, h4', by decide, ?_, ?_⟩
  · rw [h5, hd, exOrder021]
  · rw [h5', hd', exOrder012]

/-- **C78**: the bits depend on the number of ranks.  The same options and the same input on one rank and on two: the first entry of the output
is 1 on one rank and 0 on two. -/
theorem C78_false_ranks : ∃ (bin bin' : List Box) (w : Box) (opts : Opts) (ob ob' : Object), bin.length = 1 ∧ bin'.length = 2 ∧
    StockC2C bin bin w w opts ob ∧ StockC2C bin' bin' w w opts ob' ∧
    ∃ (W W' : World (Flt exDouble) ℝ) (m0s m0s' ms ms' : List (Mem (Flt exDouble) ℝ)) (G F F' : Field (Flt exDouble) ℝ) (p : A3 Int),
      WorldOk W ob.plan true ∧ WorldOk W' ob'.plan true ∧
      CallArrays bin bin false false (ob.sizeWorkspace noWork) 1 (fun _ => false) m0s G ∧
      CallArrays bin' bin' false false (ob'.sizeWorkspace noWork) 1 (fun _ => false) m0s' G ∧
      floatCall exDouble ob (fun _ _ => (fun _ => 0, fun _ _ => 0)) (fun _ _ _ => 0) W .same true 1 (fun _ => false) .none m0s = .ok ms ∧
      floatCall exDouble ob' (fun _ _ => (fun _ => 0, fun _ _ => 0)) (fun _ _ _ => 0) W' .same true 1 (fun _ => false) .none m0s' = .ok ms' ∧
      Outcome bin 1 m0s ms F ∧ Outcome bin' 1 m0s' ms' F' ∧ p ∈ w ∧ F.val 0 p = .inl (exReal 1) ∧ F'.val 0 p = .inl (exReal 0) := by
  have hg : ∃ wi wo, Geometry [exCube] [exCube] none wi wo ∧ wi.low = ⟨0, 0, 0⟩ ∧ wo.low = ⟨0, 0, 0⟩ :=
    checked_geometry (by decide) rfl (by decide) (by decide) ⟨_, List.mem_cons_self .., ⟨0, 0, 0⟩, by decide⟩
  have hg' : ∃ wi wo, Geometry exHalves exHalves none wi wo ∧ wi.low = ⟨0, 0, 0⟩ ∧ wo.low = ⟨0, 0, 0⟩ :=
    checked_geometry (by decide) rfl (by decide) (by decide) ⟨_, List.mem_cons_self .., ⟨0, 0, 0⟩, by decide⟩
  have hs : SourceHolds [exCube] fun _ => false := by
    have key : ∀ r, r < [exCube].length → (boxAt [exCube] r).low ∈ boxAt [exCube] r := by decide
    exact fun r hr => .inr ⟨_, key r hr⟩
  have hs' : SourceHolds exHalves fun _ => false := by
    have key : ∀ r, r < exHalves.length → (boxAt exHalves r).low ∈ boxAt exHalves r := by decide
    exact fun r hr => .inr ⟨_, key r hr⟩
  obtain ⟨ob, S, hd⟩ := exCubeObject (opts := Opts.default true) (dirs := ⟨0, 1, 2⟩) hg (by decide) (by decide) (by decide +kernel)
  obtain ⟨ob', S', hd'⟩ := exCubeObject (opts := Opts.default true) (dirs := ⟨0, 2, 1⟩) hg' (by decide) (by decide) (by decide +kernel)
  obtain ⟨W, m0s, ms, F, h1, h2, h3, h4, h5⟩ := exCubeCall S hs
  obtain ⟨W', m0s', ms', F', h1', h2', h3', h4', h5'⟩ := exCubeCall S' hs'
  refine ⟨_, _, exCube, _, ob, ob', rfl, rfl, S, S', W, W', m0s, m0s', ms, ms', _, F, F', ⟨0, 0, 0⟩, h1, h1', h2, h2', h3, h3', h4, h4', by decide, ?_, ?_⟩
  · rw [h5, hd, exOrder012]
  · rw [h5', hd', exOrder021]

end Verif
