import Verif.TrigLawLemmas
import Verif.Props.Device

/-!
# Sine and cosine transforms that laws relate

Any call of any object for sine or cosine transforms, on any number of ranks: what its arrays hold, index by index.
-/

namespace Verif
open Stock

/-- The arrays with the input of a call and, afterwards, with the output (heffte_fft3d.h:297-408: `input` and `output`, which can be the same). -/
def realInputs (inplace : Nat → Bool) (m0s : List (Mem ℝ Unit)) : List (Data ℝ Unit) := m0s.mapIdx fun r m => inputOf inplace r m
def realOutputs (ms : List (Mem ℝ Unit)) : List (Data ℝ Unit) := ms.map Mem.output

/-- A call of the transform `z`, forward or backward: the stock backend (heffte_r2r_executor.h:192-283 with
heffte_backend_stock.h:645-675), MKL (heffte_backend_mkl.h:466-484), a GPU with cuFFT or rocFFT (heffte_backend_cuda.h:772-795,
heffte_backend_rocm.h:899-928). -/
inductive PerformedTrig (z : Trig) : (fwd : Bool) → (s : Scaling) → (w : Box) → (src dst : List Box) → (nb : Nat) → (input output : List (Data ℝ Unit)) → Prop
  | stock {bin bout wi wo opts ob fwd s nb inplace m0s ms n junk inp ws W} (S : StockR2R z bin bout wi wo opts ob) (hn : 0 < n) (hW : WorldOk W ob.plan fwd)
      (hnb : 0 < nb) (hws : EnoughWork ob ws)
      (ha : HasArrays (srcBoxes fwd bin bout) (dstBoxes fwd bin bout) false false (ob.sizeWorkspace trigWork) nb inplace m0s)
      (hs : SourceHolds (srcBoxes fwd bin bout) inplace) (h : performR2R ob (trigKernel (stockKernel n junk inp) ws) W fwd nb inplace s m0s = .ok ms) :
      PerformedTrig z fwd s wi (srcBoxes fwd bin bout) (dstBoxes fwd bin bout) nb (realInputs inplace m0s) (realOutputs ms)
  | mkl {bin bout wi wo opts ob fwd s nb inplace m0s ms ws W} {K : Kernel ℂ ℝ} (S : TrigObject z bin bout wi wo opts ob) (hK : PairLibrary K)
      (hW : WorldOk W ob.plan fwd) (hnb : 0 < nb) (hws : EnoughWork ob ws)
      (ha : HasArrays (srcBoxes fwd bin bout) (dstBoxes fwd bin bout) false false (ob.sizeWorkspace trigWork) nb inplace m0s)
      (hs : SourceHolds (srcBoxes fwd bin bout) inplace) (h : performR2R ob (trigKernel K ws) W fwd nb inplace s m0s = .ok ms) :
      PerformedTrig z fwd s wi (srcBoxes fwd bin bout) (dstBoxes fwd bin bout) nb (realInputs inplace m0s) (realOutputs ms)
  | device {bin bout wi wo opts ob fwd s nb inplace m0s ms W} {D : Device} {work : Box → Int} (S : TrigObject z bin bout wi wo opts ob) (hD : DeviceOk D z work ob)
      (hW : WorldOk W ob.plan fwd) (hnb : 0 < nb)
      (ha : HasArrays (srcBoxes fwd bin bout) (dstBoxes fwd bin bout) false false (ob.sizeWorkspace (deviceWork D.aligned work)) nb inplace m0s)
      (hs : SourceHolds (srcBoxes fwd bin bout) inplace) (h : performR2R ob (deviceKernel D) W fwd nb inplace s m0s = .ok ms) :
      PerformedTrig z fwd s wi (srcBoxes fwd bin bout) (dstBoxes fwd bin bout) nb (realInputs inplace m0s) (realOutputs ms)

/-! ## What the arrays hold -/

theorem reals_of {boxes : List Box} {u : Box} {data : List (Data ℝ Unit)} {nb : Nat} {g : Nat → A3 Int → ℝ} (ht : Tiles boxes u) (hl : data.length = boxes.length)
    (h : ∀ (r : Nat) x, data[r]? = some x → ∀ j, j < nb → HoldsSlot (boxAt boxes r) j x (.inl g)) {j : Nat} (hj : j < nb) (p : A3 Int) (v : ℝ) :
    RealAt boxes data j p v ↔ p ∈ u ∧ v = g j p := by
  constructor
  · rintro ⟨r, b, x, hb, hx, hp, hv⟩
    have hr := (List.getElem?_eq_some_iff.1 hb).1
    refine ⟨ht.mem_world (List.mem_of_getElem? hb) hp, ?_⟩
    have e : boxAt boxes r = b := by rw [boxAt, List.getD_eq_getElem?_getD, hb]; rfl
    have h1 := h r x hx j hj p (by rw [e]; exact hp)
    rw [e] at h1
    rw [h1] at hv
    exact (Sum.inl.inj (Option.some.inj hv)).symm
  · rintro ⟨hp, rfl⟩
    obtain ⟨b, hb, hpb⟩ := ht.exists_box hp
    obtain ⟨r, hr⟩ := List.mem_iff_getElem?.1 hb
    have hlt := (List.getElem?_eq_some_iff.1 hr).1
    have hx := List.getElem?_eq_getElem (l := data) (i := r) (by rw [hl]; exact hlt)
    have e : boxAt boxes r = b := by rw [boxAt, List.getD_eq_getElem?_getD, hr]; rfl
    refine ⟨r, b, _, hr, hx, hpb, ?_⟩
    have h1 := h r _ hx j hj p (by rw [e]; exact hpb)
    rw [e] at h1
    rw [h1]
    rfl

theorem reals_in {src dst : List Box} {u : Box} {need : Nat → Int} {nb : Nat} {inplace : Nat → Bool} {m0s : List (Mem ℝ Unit)} {g : Nat → A3 Int → ℝ}
    (ht : Tiles src u) (ha : CallArrays src dst false false need nb inplace m0s (.inl g)) {j : Nat} (hj : j < nb) (p : A3 Int) (v : ℝ) :
    RealAt src (realInputs inplace m0s) j p v ↔ p ∈ u ∧ v = g j p := by
  refine reals_of ht (by rw [realInputs, List.length_mapIdx]; exact ha.ranks) (fun r x hx j hj => ?_) hj p v
  rw [realInputs, List.getElem?_mapIdx] at hx
  obtain ⟨m, hm, rfl⟩ := Option.map_eq_some_iff.1 hx
  exact ha.start r m hm j hj

theorem reals_out {dst : List Box} {u : Box} {nb : Nat} {m0s ms : List (Mem ℝ Unit)} {g : Nat → A3 Int → ℝ} (ht : Tiles dst u) (hl : m0s.length = dst.length)
    (ho : Outcome dst nb m0s ms (.inl g)) {j : Nat} (hj : j < nb) (p : A3 Int) (v : ℝ) :
    RealAt dst (realOutputs ms) j p v ↔ p ∈ u ∧ v = g j p := by
  refine reals_of ht (by rw [realOutputs, List.length_map, ho.ranks, hl]) (fun r x hx j hj => ?_) hj p v
  rw [realOutputs, List.getElem?_map] at hx
  obtain ⟨m, hm, rfl⟩ := Option.map_eq_some_iff.1 hx
  exact ho.values r m hm j hj

theorem PerformedTrig.maps {z : Trig} {fwd : Bool} {s : Scaling} {w : Box} {src dst : List Box} {nb : Nat} {input output : List (Data ℝ Unit)}
    (P : PerformedTrig z fwd s w src dst nb input output) :
    (∀ d, z.least ≤ w.extent d) ∧ ∃ G : Nat → A3 Int → ℝ, ∀ j, j < nb → (∀ p x, RealAt src input j p x ↔ p ∈ w ∧ x = G j p) ∧
      ∀ p x, RealAt dst output j p x ↔ p ∈ w ∧ x = s.factor (z.gain3 w) * trig3 z fwd w (G j) p := by
  have key : ∀ {bin bout : List Box} {wi wo : Box} {opts : Opts} {ob : Object} {fwd : Bool} {need : Nat → Int} {nb : Nat} {inplace : Nat → Bool}
      {m0s ms : List (Mem ℝ Unit)} {run : Res (List (Mem ℝ Unit))}, TrigObject z bin bout wi wo opts ob →
      HasArrays (srcBoxes fwd bin bout) (dstBoxes fwd bin bout) false false need nb inplace m0s → run = .ok ms →
      (∀ g, CallArrays (srcBoxes fwd bin bout) (dstBoxes fwd bin bout) false false need nb inplace m0s (.inl g) →
        ∃ ms, run = .ok ms ∧ Outcome (dstBoxes fwd bin bout) nb m0s ms (.inl fun j p => s.factor (z.gain3 wi) * trig3 z fwd wi (g j) p)) →
      (∀ d, z.least ≤ wi.extent d) ∧ ∃ G : Nat → A3 Int → ℝ, ∀ j, j < nb → (∀ p x, RealAt (srcBoxes fwd bin bout) (realInputs inplace m0s) j p x ↔ p ∈ wi ∧ x = G j p) ∧
        ∀ p x, RealAt (dstBoxes fwd bin bout) (realOutputs ms) j p x ↔ p ∈ wi ∧ x = s.factor (z.gain3 wi) * trig3 z fwd wi (G j) p := by
    intro bin bout wi wo opts ob fwd need nb inplace m0s ms run S ha h hcall
    obtain ⟨F, hF, hc⟩ := ha.values (src_tiles S.geo fwd) (src_order S.geo fwd) (fun _ _ _ => rfl)
    cases F with
    | inr g => cases hF
    | inl g =>
    obtain ⟨ms', h1, h2⟩ := hcall g hc
    cases h.symm.trans h1
    exact ⟨S.defined, g, fun j hj => ⟨reals_in (src_tiles S.geo fwd) hc hj,
      reals_out (dst_tiles S.geo fwd) (by rw [hc.ranks, src_length S.geo, dst_length S.geo]) h2 hj⟩⟩
  cases P with
  | stock S hn hW hnb hws ha hs h => exact key S.object ha h fun g hc => C45_calls S hn hW hnb hws hc hs
  | mkl S hK hW hnb hws ha hs h => exact key S ha h fun g hc => C70_mkl_calls S hK hW hnb hws hc hs
  | device S hD hW hnb ha hs h => exact key S ha h fun g hc => C70_calls S hD hW hnb hc hs

end Verif
