import Verif.LawLemmas
import Verif.Props.Library

/-!
# Calls that laws relate

Any call of any object of any backend on any number of ranks: what its arrays hold, index by index.
-/

namespace Verif
open Stock

/-- The arrays with the input of a call and, afterwards, with the output (heffte_fft3d.h:297-408: `input` and `output`, which can be the same). -/
def inputs (inplace : Nat → Bool) (m0s : List (Mem ℂ ℝ)) : List (Data ℂ ℝ) := m0s.mapIdx fun r m => inputOf inplace r m
def outputs (ms : List (Mem ℂ ℝ)) : List (Data ℂ ℝ) := ms.map Mem.output

/-- A call with complex output: forward or backward with complex data, forward with real data on an `fft3d` or an `fft3d_r2c`; stock backend, or a
library that computes the transforms. `w`: the indexes of the object, `v`: those of the output. -/
inductive Performed : (fwd : Bool) → (s : Scaling) → (w v : Box) → (src dst : List Box) → (nb : Nat) → (input output : List (Data ℂ ℝ)) → Prop
  | stock {bin bout wi wo opts ob fwd s nb inplace m0s ms n junk inp W} (S : StockC2C bin bout wi wo opts ob) (hn : 0 < n) (hW : WorldOk W ob.plan fwd)
      (hnb : 0 < nb) (ha : HasArrays (srcBoxes fwd bin bout) (dstBoxes fwd bin bout) false false (ob.sizeWorkspace noWork) nb inplace m0s)
      (hs : SourceHolds (srcBoxes fwd bin bout) inplace) (h : perform ob (stockKernel n junk inp) W .same fwd nb inplace s m0s = .ok ms) :
      Performed fwd s wi wi (srcBoxes fwd bin bout) (dstBoxes fwd bin bout) nb (inputs inplace m0s) (outputs ms)
  | stockReal {bin bout wi wo opts ob s nb m0s ms n junk inp W} (S : StockC2C bin bout wi wo opts ob) (hn : 0 < n) (hW : WorldOk W ob.plan true)
      (hnb : 0 < nb) (ha : HasArrays bin bout true false (ob.sizeWorkspace noWork) nb (fun _ => false) m0s)
      (h : perform ob (stockKernel n junk inp) W .r2c true nb (fun _ => false) s m0s = .ok ms) :
      Performed true s wi wi bin bout nb (inputs (fun _ => false) m0s) (outputs ms)
  | stockHalf {bin bout d wi wo opts ob s nb m0s ms n junk inp W} (S : StockR2C bin bout d wi wo opts ob) (hn : 0 < n) (hW : WorldOk W ob.plan true)
      (hnb : 0 < nb) (ha : HasArrays bin bout true false (ob.sizeWorkspace noWork) nb (fun _ => false) m0s) (hhalf : nb = 1 ∨ ReshapesAfter ob bin.length)
      (h : perform ob (stockKernel n junk inp) W .r2c true nb (fun _ => false) s m0s = .ok ms) :
      Performed true s wi wo bin bout nb (inputs (fun _ => false) m0s) (outputs ms)
  | library {bin bout wi wo opts ob fwd s nb inplace m0s ms K ws W} (S : LibraryC2C bin bout wi wo opts ob) (hK : ExactLibrary K) (hws : ∀ e, 0 ≤ ws e)
      (hW : WorldOk W ob.plan fwd) (hnb : 0 < nb) (ha : HasArrays (srcBoxes fwd bin bout) (dstBoxes fwd bin bout) false false (ob.sizeWorkspace ws) nb inplace m0s)
      (hs : SourceOrInplace (srcBoxes fwd bin bout) inplace) (h : perform ob K W .same fwd nb inplace s m0s = .ok ms) :
      Performed fwd s wi wi (srcBoxes fwd bin bout) (dstBoxes fwd bin bout) nb (inputs inplace m0s) (outputs ms)
  | libraryReal {bin bout wi wo opts ob s nb m0s ms K ws W} (S : LibraryC2C bin bout wi wo opts ob) (hK : ExactLibrary K) (hws : ∀ e, 0 ≤ ws e)
      (hW : WorldOk W ob.plan true) (hnb : 0 < nb) (ha : HasArrays bin bout true false (ob.sizeWorkspace ws) nb (fun _ => false) m0s)
      (h : perform ob K W .r2c true nb (fun _ => false) s m0s = .ok ms) :
      Performed true s wi wi bin bout nb (inputs (fun _ => false) m0s) (outputs ms)
  | libraryHalf {bin bout d wi wo opts ob s nb m0s ms K ws W} (S : LibraryR2C bin bout d wi wo opts ob) (hK : ExactLibrary K) (hws : ∀ e, 0 ≤ ws e)
      (hW : WorldOk W ob.plan true) (hnb : 0 < nb) (ha : HasArrays bin bout true false (ob.sizeWorkspace ws) nb (fun _ => false) m0s)
      (hhalf : nb = 1 ∨ ReshapesAfter ob bin.length) (h : perform ob K W .r2c true nb (fun _ => false) s m0s = .ok ms) :
      Performed true s wi wo bin bout nb (inputs (fun _ => false) m0s) (outputs ms)

/-- A backward call to real data. `u`: the indexes of the input; with `some d` of an `fft3d_r2c` that shrinks the direction `d`. -/
inductive PerformedBack : (d : Option (Fin 3)) → (s : Scaling) → (w u : Box) → (src dst : List Box) → (nb : Nat) → (input output : List (Data ℂ ℝ)) → Prop
  | stock {bin bout wi wo opts ob s nb m0s ms n junk inp W} (S : StockC2C bin bout wi wo opts ob) (hn : 0 < n) (hW : WorldOk W ob.plan false)
      (hnb : 0 < nb) (ha : HasArrays bout bin false true (ob.sizeWorkspace noWork) nb (fun _ => false) m0s) (hs : SourceHolds bout fun _ => false)
      (h : perform ob (stockKernel n junk inp) W .c2r false nb (fun _ => false) s m0s = .ok ms) :
      PerformedBack none s wi wi bout bin nb (inputs (fun _ => false) m0s) (outputs ms)
  | stockHalf {bin bout d wi wo opts ob s nb m0s ms n junk inp W} (S : StockR2C bin bout d wi wo opts ob) (hn : 0 < n) (hW : WorldOk W ob.plan false)
      (hnb : 0 < nb) (ha : HasArrays bout bin false true (ob.sizeWorkspace noWork) nb (fun _ => false) m0s) (hs : SourceHolds bout fun _ => false)
      (h : perform ob (stockKernel n junk inp) W .c2r false nb (fun _ => false) s m0s = .ok ms) :
      PerformedBack (some d) s wi wo bout bin nb (inputs (fun _ => false) m0s) (outputs ms)
  | library {bin bout wi wo opts ob s nb m0s ms K ws W} (S : LibraryC2C bin bout wi wo opts ob) (hK : ExactLibrary K) (hws : ∀ e, 0 ≤ ws e)
      (hW : WorldOk W ob.plan false) (hnb : 0 < nb) (ha : HasArrays bout bin false true (ob.sizeWorkspace ws) nb (fun _ => false) m0s)
      (hs : SourceHolds bout fun _ => false) (h : perform ob K W .c2r false nb (fun _ => false) s m0s = .ok ms) :
      PerformedBack none s wi wi bout bin nb (inputs (fun _ => false) m0s) (outputs ms)
  | libraryHalf {bin bout d wi wo opts ob s nb m0s ms K ws W} (S : LibraryR2C bin bout d wi wo opts ob) (hK : ExactLibrary K) (hws : ∀ e, 0 ≤ ws e)
      (hW : WorldOk W ob.plan false) (hnb : 0 < nb) (ha : HasArrays bout bin false true (ob.sizeWorkspace ws) nb (fun _ => false) m0s)
      (hs : SourceHolds bout fun _ => false) (h : perform ob K W .c2r false nb (fun _ => false) s m0s = .ok ms) :
      PerformedBack (some d) s wi wo bout bin nb (inputs (fun _ => false) m0s) (outputs ms)

/-! ## What the arrays hold -/

theorem entries_of {boxes : List Box} {u : Box} {data : List (Data ℂ ℝ)} {nb : Nat} {F : Field ℂ ℝ} (ht : Tiles boxes u) (hl : data.length = boxes.length)
    (h : ∀ (r : Nat) x, data[r]? = some x → ∀ j, j < nb → HoldsSlot (boxAt boxes r) j x F) {j : Nat} (hj : j < nb) (p : A3 Int) (v : ℂ) :
    EntryAt boxes data j p v ↔ p ∈ u ∧ v = asComplex (F.val j p) := by
  constructor
  · rintro ⟨r, b, x, hb, hx, hp, hv⟩
    have hr := (List.getElem?_eq_some_iff.1 hb).1
    refine ⟨ht.mem_world (List.mem_of_getElem? hb) hp, ?_⟩
    have e : boxAt boxes r = b := by rw [boxAt, List.getD_eq_getElem?_getD, hb]; rfl
    have h1 := h r x hx j hj p (by rw [e]; exact hp)
    rw [e] at h1
    rw [h1] at hv
    exact (Option.some.inj hv).symm
  · rintro ⟨hp, rfl⟩
    obtain ⟨b, hb, hpb⟩ := ht.exists_box hp
    obtain ⟨r, hr⟩ := List.mem_iff_getElem?.1 hb
    have hlt := (List.getElem?_eq_some_iff.1 hr).1
    have hx := List.getElem?_eq_getElem (l := data) (i := r) (by rw [hl]; exact hlt)
    have e : boxAt boxes r = b := by rw [boxAt, List.getD_eq_getElem?_getD, hr]; rfl
    refine ⟨r, b, _, hr, hx, hpb, ?_⟩
    have h1 := h r _ hx j hj p (by rw [e]; exact hpb)
    rw [e] at h1
    rw [h1]
    rfl

theorem entries_in {src dst : List Box} {u : Box} {realIn realOut : Bool} {need : Nat → Int} {nb : Nat} {inplace : Nat → Bool} {m0s : List (Mem ℂ ℝ)} {F : Field ℂ ℝ}
    (ht : Tiles src u) (ha : CallArrays src dst realIn realOut need nb inplace m0s F) {j : Nat} (hj : j < nb) (p : A3 Int) (v : ℂ) :
    EntryAt src (inputs inplace m0s) j p v ↔ p ∈ u ∧ v = asComplex (F.val j p) := by
  refine entries_of ht (by rw [inputs, List.length_mapIdx]; exact ha.ranks) (fun r x hx j hj => ?_) hj p v
  rw [inputs, List.getElem?_mapIdx] at hx
  obtain ⟨m, hm, rfl⟩ := Option.map_eq_some_iff.1 hx
  exact ha.start r m hm j hj

theorem entries_out {dst : List Box} {u : Box} {nb : Nat} {m0s ms : List (Mem ℂ ℝ)} {F : Field ℂ ℝ} (ht : Tiles dst u) (hl : m0s.length = dst.length)
    (ho : Outcome dst nb m0s ms F) {j : Nat} (hj : j < nb) (p : A3 Int) (v : ℂ) :
    EntryAt dst (outputs ms) j p v ↔ p ∈ u ∧ v = asComplex (F.val j p) := by
  refine entries_of ht (by rw [outputs, List.length_map, ho.ranks, hl]) (fun r x hx j hj => ?_) hj p v
  rw [outputs, List.getElem?_map] at hx
  obtain ⟨m, hm, rfl⟩ := Option.map_eq_some_iff.1 hx
  exact ho.values r m hm j hj

/-- The entries of the arrays before and after: `G` before, `T G` afterwards. -/
def Maps (u v : Box) (src dst : List Box) (nb : Nat) (input output : List (Data ℂ ℝ)) (T : (A3 Int → ℂ) → A3 Int → ℂ) : Prop :=
  ∃ G : Nat → A3 Int → ℂ, ∀ j, j < nb → (∀ p x, EntryAt src input j p x ↔ p ∈ u ∧ x = G j p) ∧ ∀ p x, EntryAt dst output j p x ↔ p ∈ v ∧ x = T (G j) p

theorem maps_of {src dst : List Box} {u v : Box} {realIn realOut : Bool} {need : Nat → Int} {nb : Nat} {inplace : Nat → Bool} {m0s ms : List (Mem ℂ ℝ)}
    {F F' : Field ℂ ℝ} (hu : Tiles src u) (hv : Tiles dst v) (hl : dst.length = src.length) (ha : CallArrays src dst realIn realOut need nb inplace m0s F)
    (ho : Outcome dst nb m0s ms F') {T : (A3 Int → ℂ) → A3 Int → ℂ} (hT : ∀ j p, asComplex (F'.val j p) = T (fun q => asComplex (F.val j q)) p) :
    Maps u v src dst nb (inputs inplace m0s) (outputs ms) T :=
  ⟨fun j p => asComplex (F.val j p), fun j hj => ⟨entries_in hu ha hj, fun p x => by rw [entries_out hv (ha.ranks.trans hl.symm) ho hj, hT]⟩⟩

theorem half_subset {wi wo : Box} {d : Fin 3} (h : ComplexWorld wi wo (some d)) {p : A3 Int} (hi : ∃ q : A3 Int, q ∈ wi) (hp : p ∈ wo) : p ∈ wi := by
  obtain ⟨q, hq⟩ := hi
  rw [Box.mem_def] at hp hq ⊢
  intro e
  have h1 := h e
  have h2 := hp e
  have h3 := hq e
  split at h1 <;> omega

section
variable {bin bout : List Box} {wi wo : Box} {opts : Opts} {ob : Object} {d : Fin 3}

theorem geo_src (geo : Geometry bin bout none wi wo) : Tiles bin wi ∧ Tiles bout wi := ⟨src_tiles geo true, dst_tiles geo true⟩
end

theorem Performed.maps {fwd : Bool} {s : Scaling} {w v : Box} {src dst : List Box} {nb : Nat} {input output : List (Data ℂ ℝ)}
    (P : Performed fwd s w v src dst nb input output) :
    (∀ p ∈ v, p ∈ w) ∧ Maps w v src dst nb input output fun G p => (s.factor w.count : ℂ) * dft3 fwd w G p := by
  cases P with
  | stock S hn hW hnb ha hs h =>
    obtain ⟨F, hF, hc⟩ := ha.values (src_tiles S.geo fwd) (src_order S.geo fwd) (fun _ _ _ => rfl)
    cases F with
    | inr g => cases hF
    | inl g =>
    obtain ⟨ms, h1, h2⟩ := C40_complex (s := s) S hn hW hnb hc hs
    cases h.symm.trans h1
    exact ⟨fun _ h => h, maps_of (src_tiles S.geo fwd) (dst_tiles S.geo fwd) (by rw [src_length S.geo, dst_length S.geo]) hc h2 fun _ _ => rfl⟩
  | stockReal S hn hW hnb ha h =>
    obtain ⟨F, hF, hc⟩ := ha.values (src_tiles S.geo true) (src_order S.geo true) (fun _ _ h => by cases h)
    cases F with
    | inl g => cases hF
    | inr g =>
    obtain ⟨ms, h1, h2⟩ := C40_real (s := s) S hn hW hnb hc
    cases h.symm.trans h1
    exact ⟨fun _ h => h, maps_of (src_tiles S.geo true) (dst_tiles S.geo true) S.geo.length hc h2 fun _ _ => rfl⟩
  | stockHalf S hn hW hnb ha hhalf h =>
    obtain ⟨F, hF, hc⟩ := ha.values S.geo.tilesIn (src_order S.geo true) (fun _ _ h => by cases h)
    cases F with
    | inl g => cases hF
    | inr g =>
    obtain ⟨ms, h1, h2⟩ := C53_forward (s := s) S hn hW hnb hc hhalf
    cases h.symm.trans h1
    exact ⟨fun _ hp => half_subset S.geo.complex S.geo.nonempty hp, maps_of S.geo.tilesIn S.geo.tilesOut S.geo.length hc h2 fun _ _ => rfl⟩
  | library S hK hws hW hnb ha hs h =>
    obtain ⟨F, hF, hc⟩ := ha.values (src_tiles S.geo fwd) (src_order S.geo fwd) (fun _ _ _ => rfl)
    cases F with
    | inr g => cases hF
    | inl g =>
    obtain ⟨ms, h1, h2⟩ := C62_complex (s := s) S hK hws hW hnb hc hs
    cases h.symm.trans h1
    exact ⟨fun _ h => h, maps_of (src_tiles S.geo fwd) (dst_tiles S.geo fwd) (by rw [src_length S.geo, dst_length S.geo]) hc h2 fun _ _ => rfl⟩
  | libraryReal S hK hws hW hnb ha h =>
    obtain ⟨F, hF, hc⟩ := ha.values (src_tiles S.geo true) (src_order S.geo true) (fun _ _ h => by cases h)
    cases F with
    | inl g => cases hF
    | inr g =>
    obtain ⟨ms, h1, h2⟩ := C62_real (s := s) S hK hws hW hnb hc
    cases h.symm.trans h1
    exact ⟨fun _ h => h, maps_of (src_tiles S.geo true) (dst_tiles S.geo true) S.geo.length hc h2 fun _ _ => rfl⟩
  | libraryHalf S hK hws hW hnb ha hhalf h =>
    obtain ⟨F, hF, hc⟩ := ha.values S.geo.tilesIn (src_order S.geo true) (fun _ _ h => by cases h)
    cases F with
    | inl g => cases hF
    | inr g =>
    obtain ⟨ms, h1, h2⟩ := C62_r2c_forward (s := s) S hK hws hW hnb hc hhalf
    cases h.symm.trans h1
    exact ⟨fun _ hp => half_subset S.geo.complex S.geo.nonempty hp, maps_of S.geo.tilesIn S.geo.tilesOut S.geo.length hc h2 fun _ _ => rfl⟩

/-- The spectrum that a backward call to real data works on. -/
noncomputable def completed (d : Option (Fin 3)) (w : Box) (G : A3 Int → ℂ) : A3 Int → ℂ :=
  match d with
  | none => G
  | some d => fullSpectrum3 w d G

theorem PerformedBack.maps {d : Option (Fin 3)} {s : Scaling} {w u : Box} {src dst : List Box} {nb : Nat} {input output : List (Data ℂ ℝ)}
    (P : PerformedBack d s w u src dst nb input output) :
    ComplexWorld w u d ∧ (∃ p : A3 Int, p ∈ w) ∧ Maps u w src dst nb input output fun G p => ((s.factor w.count * (dft3 false w (completed d w G) p).re : ℝ) : ℂ) := by
  have full : ∀ {bin bout : List Box} {wi wo : Box}, Geometry bin bout none wi wo → ComplexWorld wi wi none := fun g e => ⟨rfl, by simp⟩
  cases P with
  | stock S hn hW hnb ha hs h =>
    obtain ⟨F, hF, hc⟩ := ha.values (src_tiles S.geo false) (src_order S.geo false) (fun _ _ h => by cases h)
    cases F with
    | inr g => cases hF
    | inl g =>
    obtain ⟨ms, h1, h2⟩ := C52_real (s := s) S hn hW hnb hc hs
    cases h.symm.trans h1
    exact ⟨full S.geo, S.geo.nonempty, maps_of (src_tiles S.geo false) (dst_tiles S.geo false) S.geo.length.symm hc h2 fun _ _ => rfl⟩
  | stockHalf S hn hW hnb ha hs h =>
    obtain ⟨F, hF, hc⟩ := ha.values S.geo.tilesOut (src_order S.geo false) (fun _ _ h => by cases h)
    cases F with
    | inr g => cases hF
    | inl g =>
    obtain ⟨ms, h1, h2⟩ := C53_backward (s := s) S hn hW hnb hc hs
    cases h.symm.trans h1
    exact ⟨S.geo.complex, S.geo.nonempty, maps_of S.geo.tilesOut S.geo.tilesIn S.geo.length.symm hc h2 fun _ _ => rfl⟩
  | library S hK hws hW hnb ha hs h =>
    obtain ⟨F, hF, hc⟩ := ha.values (src_tiles S.geo false) (src_order S.geo false) (fun _ _ h => by cases h)
    cases F with
    | inr g => cases hF
    | inl g =>
    obtain ⟨ms, h1, h2⟩ := C62_backward_real (s := s) S hK hws hW hnb hc hs
    cases h.symm.trans h1
    exact ⟨full S.geo, S.geo.nonempty, maps_of (src_tiles S.geo false) (dst_tiles S.geo false) S.geo.length.symm hc h2 fun _ _ => rfl⟩
  | libraryHalf S hK hws hW hnb ha hs h =>
    obtain ⟨F, hF, hc⟩ := ha.values S.geo.tilesOut (src_order S.geo false) (fun _ _ h => by cases h)
    cases F with
    | inr g => cases hF
    | inl g =>
    obtain ⟨ms, h1, h2⟩ := C62_r2c_backward (s := s) S hK hws hW hnb hc hs
    cases h.symm.trans h1
    exact ⟨S.geo.complex, S.geo.nonempty, maps_of S.geo.tilesOut S.geo.tilesIn S.geo.length.symm hc h2 fun _ _ => rfl⟩

end Verif
