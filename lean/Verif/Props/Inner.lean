import Verif.Inner
import Verif.Props.Laws
import Verif.Props.Convolution

/-!
# Inner products of spectra (C97)
-/

namespace Verif
open Stock Finset

section
variable {fwd : Bool} {s s' : Scaling} {w v : Box} {src dst : List Box} {nb nb' j j' : Nat} {input output input' output' : List (Data ℂ ℝ)} {d : Fin 3}

/-- **C97.** Two calls on the same boxes, with any backends, options, scalings and batches: the inner product of the two outputs, computed by multiplying the local arrays position by position
and adding up over the ranks, is the inner product of the inputs times the number of indexes and the two factors. -/
theorem C97_inner (P : Performed fwd s w w src dst nb input output) (P' : Performed fwd s' w w src dst nb' input' output') (hj : j < nb) (hj' : j' < nb') :
    totalInner dst j j' output output' = (s.factor w.count * s'.factor w.count * w.count : ℝ) * totalInner src j j' input input' := by
  obtain ⟨-, G, hG⟩ := P.maps
  obtain ⟨-, G', hG'⟩ := P'.maps
  obtain ⟨h1, h2⟩ := hG j hj
  obtain ⟨h1', h2'⟩ := hG' j' hj'
  obtain ⟨⟨t1, o1⟩, ⟨t2, o2⟩, -⟩ := P.tiles
  rw [totalInner_entries t2 o2 (fun p hp => (h2 p _).2 ⟨hp, rfl⟩) (fun p hp => (h2' p _).2 ⟨hp, rfl⟩),
    totalInner_entries t1 o1 (fun p hp => (h1 p _).2 ⟨hp, rfl⟩) (fun p hp => (h1' p _).2 ⟨hp, rfl⟩)]
  have := inner_dft3 fwd w (G j) (G' j')
  push_cast
  rw [mul_assoc, ← this, Finset.mul_sum]
  refine Finset.sum_congr rfl fun p _ => ?_
  rw [map_mul, Complex.conj_ofReal]
  ring

/-- C97: with the symmetric scaling the inner product does not change; the same with two scalings that undo each other. -/
theorem C97_unitary (P : Performed fwd s w w src dst nb input output) (P' : Performed fwd s' w w src dst nb' input' output') (hj : j < nb) (hj' : j' < nb')
    (hs : Inverse s s') : totalInner dst j j' output output' = totalInner src j j' input input' := by
  obtain ⟨p, hp⟩ := P.tiles.2.2
  have hc : 0 < w.count := by rw [Box.count_eq_card]; exact_mod_cast Finset.card_pos.2 ⟨p, Box.mem_points.2 hp⟩
  rw [C97_inner P P' hj hj', mul_comm (s.factor w.count), inverse_factor hs hc, Complex.ofReal_one, one_mul]

/-- C97 for half spectra of real values: with the weights of C96 the real part of the inner product is that of the full spectra. -/
theorem C97_half (P : Performed true s w v src dst nb input output) (P' : Performed true s' w v src dst nb' input' output') (hj : j < nb) (hj' : j' < nb')
    (hv : ComplexWorld w v (some d)) (hin : ∀ p x, EntryAt src input j p x → x.im = 0) (hin' : ∀ p x, EntryAt src input' j' p x → x.im = 0) :
    ((weightedInner (halfWeight w d) dst j j' output output').re : ℂ) = (s.factor w.count * s'.factor w.count * w.count : ℝ) * totalInner src j j' input input' := by
  obtain ⟨-, G, hG⟩ := P.maps
  obtain ⟨-, G', hG'⟩ := P'.maps
  obtain ⟨h1, h2⟩ := hG j hj
  obtain ⟨h1', h2'⟩ := hG' j' hj'
  obtain ⟨⟨t1, o1⟩, ⟨t2, o2⟩, hne⟩ := P.tiles
  rw [weightedInner_entries t2 (fun p hp => (h2 p _).2 ⟨hp, rfl⟩) (fun p hp => (h2' p _).2 ⟨hp, rfl⟩),
    totalInner_entries t1 o1 (fun p hp => (h1 p _).2 ⟨hp, rfl⟩) (fun p hp => (h1' p _).2 ⟨hp, rfl⟩)]
  have r1 : ∀ p ∈ w, starRingEnd ℂ (G j p) = G j p := fun p hp => Complex.conj_eq_iff_im.2 (hin p _ ((h1 p _).2 ⟨hp, rfl⟩))
  have r2 : ∀ p ∈ w, starRingEnd ℂ (G' j' p) = G' j' p := fun p hp => Complex.conj_eq_iff_im.2 (hin' p _ ((h1' p _).2 ⟨hp, rfl⟩))
  let f : A3 Int → ℝ := fun p => (starRingEnd ℂ (dft3 true w (G j) p) * dft3 true w (G' j') p).re
  have hf : ∀ p ∈ w, f (mirror w p) = f p := by
    intro p hp
    have e1 := dft3_conj true (G j) hp
    have e2 := dft3_conj true (G' j') hp
    rw [dft3_congr (fun q hq => r1 q hq) true] at e1
    rw [dft3_congr (fun q hq => r2 q hq) true] at e2
    simp only [f]
    rw [e1, e2]
    simp only [Complex.mul_re, Complex.conj_re, Complex.conj_im]
    ring
  have key := half_sum hv hne hf
  have full := inner_dft3 true w (G j) (G' j')
  have real : ∑ q ∈ w.points, starRingEnd ℂ (G j q) * G' j' q = ((∑ q ∈ w.points, starRingEnd ℂ (G j q) * G' j' q).re : ℂ) := by
    symm
    refine Complex.conj_eq_iff_re.1 ?_
    rw [map_sum]
    refine Finset.sum_congr rfl fun q hq => ?_
    have hq := Box.mem_points.1 hq
    rw [map_mul, r2 q hq, r1 q hq, r1 q hq]
  have fr := congrArg Complex.re full
  rw [Complex.re_sum, real, ← Complex.ofReal_intCast, ← Complex.ofReal_mul, Complex.ofReal_re] at fr
  rw [real, ← Complex.ofReal_mul, mul_assoc, ← fr]
  congr 1
  rw [Complex.re_sum]
  show _ = _ * ∑ p ∈ w.points, f p
  rw [← key, Finset.mul_sum]
  refine Finset.sum_congr rfl fun p _ => ?_
  rw [map_mul, Complex.conj_ofReal, show (halfWeight w d p : ℂ) * (((s.factor w.count : ℝ) : ℂ) * starRingEnd ℂ (dft3 true w (G j) p) * (((s'.factor w.count : ℝ) : ℂ) * dft3 true w (G' j') p)) =
    (((halfWeight w d p : ℝ) * (s.factor w.count * s'.factor w.count) : ℝ) : ℂ) * (starRingEnd ℂ (dft3 true w (G j) p) * dft3 true w (G' j') p) by push_cast; ring, Complex.re_ofReal_mul]
  simp only [f]
  ring

end

/-- C97: any values, the stock backend without scaling and a library with full scaling, a batch of three and one of two: the inner product of two of the outputs is that of the inputs. -/
example (opts opts' : Opts) (h : opts'.useReorder = true) (g g' : Nat → A3 Int → ℂ) :
    ∃ input output input' output', Performed true .none lawWorld lawWorld exIn exOut 3 input output ∧ Performed true .full lawWorld lawWorld exIn exOut 2 input' output' ∧
      (∀ p x, EntryAt exIn input 2 p x → x = g 2 p) ∧ (∀ p x, EntryAt exIn input' 1 p x → x = g' 1 p) ∧
      totalInner exOut 2 1 output output' = totalInner exIn 2 1 input input' := by
  obtain ⟨wi, wo, ob, S⟩ := exObject opts
  obtain rfl : lawWorld = wi := Except.ok.inj ((by decide : findWorld exIn = .ok lawWorld).symm.trans S.geo.worldIn)
  obtain ⟨wi, wo', ob', S'⟩ := exLibrary opts' h
  obtain rfl : lawWorld = wi := Except.ok.inj ((by decide : findWorld exIn = .ok lawWorld).symm.trans S'.geo.worldIn)
  obtain ⟨W, hW⟩ := world_exists ob.plan true
  obtain ⟨W', hW'⟩ := world_exists ob'.plan true
  obtain ⟨xs, ha⟩ := arrays_exist exIn exOut false (ob.sizeWorkspace noWork) 3 (.inl g : Field ℂ ℝ) (src_order S.geo true)
  obtain ⟨ys, hb⟩ := arrays_exist exIn exOut false (ob'.sizeWorkspace fun e => e.boxSize) 2 (.inl g' : Field ℂ ℝ) (src_order S'.geo true)
  have hs := exSource exIn (by simp)
  obtain ⟨ms, h1, -⟩ := C40_complex (junk := fun _ _ => ⟨fun _ => 0, fun _ _ => 0⟩) (inp := fun _ _ _ => 0) (s := .none) (fwd := true) S (by decide : 0 < 4) hW (by decide : 0 < 3) ha hs
  obtain ⟨ms', h2, -⟩ := C62_complex (s := .full) (fwd := true) S' exact_library (fun e => e.boxSize_nonneg) hW' (by decide : 0 < 2) hb (.inr hs)
  have P : Performed true .none lawWorld lawWorld exIn exOut 3 _ _ := .stock S (by decide : 0 < 4) hW (by decide : 0 < 3) ha.has hs h1
  have P' : Performed true .full lawWorld lawWorld exIn exOut 2 _ _ := .library S' exact_library (fun e => e.boxSize_nonneg) hW' (by decide : 0 < 2) hb.has (.inr hs) h2
  refine ⟨_, _, _, _, P, P', fun p x hx => ?_, fun p x hx => ?_, C97_unitary P P' (by decide) (by decide) (by simp [Inverse])⟩
  · exact ((entries_in S.geo.tilesIn ha (by decide : 2 < 3) p x).1 hx).2
  · exact ((entries_in S'.geo.tilesIn hb (by decide : 1 < 2) p x).1 hx).2

/-- C97 for the half spectra of any real values, stock backend and library, symmetric scaling. -/
example (opts opts' : Opts) (g g' : Nat → A3 Int → ℝ) :
    ∃ v input output input' output', Performed true .symmetric lawWorld v exIn exOutC 1 input output ∧ Performed true .symmetric lawWorld v exIn exOutC 1 input' output' ∧
      (∀ p x, EntryAt exIn input 0 p x → x = g 0 p) ∧ (∀ p x, EntryAt exIn input' 0 p x → x = g' 0 p) ∧
      (weightedInner (halfWeight lawWorld 1) exOutC 0 0 output output').re = totalInner exIn 0 0 input input' := by
  obtain ⟨wi, wo, ob, S⟩ := exObjectC opts
  obtain rfl : lawWorld = wi := Except.ok.inj ((by decide : findWorld exIn = .ok lawWorld).symm.trans S.geo.worldIn)
  obtain ⟨wi, wo', ob', S'⟩ := exObjectC opts'
  obtain rfl : lawWorld = wi := Except.ok.inj ((by decide : findWorld exIn = .ok lawWorld).symm.trans S'.geo.worldIn)
  obtain rfl : wo = wo' := Except.ok.inj (S.geo.worldOut.symm.trans S'.geo.worldOut)
  have L : LibraryR2C exIn exOutC 1 lawWorld wo opts' ob' := ⟨S'.geo, S'.made, S'.first, S'.small⟩
  obtain ⟨W, hW⟩ := world_exists ob.plan true
  obtain ⟨W', hW'⟩ := world_exists ob'.plan true
  obtain ⟨xs, ha⟩ := arrays_exist exIn exOutC false (ob.sizeWorkspace noWork) 1 (.inr g : Field ℂ ℝ) (src_order S.geo true)
  obtain ⟨ys, hb⟩ := arrays_exist exIn exOutC false (ob'.sizeWorkspace fun e => e.boxSize) 1 (.inr g' : Field ℂ ℝ) (src_order S'.geo true)
  obtain ⟨ms, h1, -⟩ := C53_forward (junk := fun _ _ => ⟨fun _ => 0, fun _ _ => 0⟩) (inp := fun _ _ _ => 0) (s := .symmetric) S (by decide : 0 < 4) hW one_pos ha (.inl rfl)
  obtain ⟨ms', h2, -⟩ := C62_r2c_forward (s := .symmetric) L exact_library (fun e => e.boxSize_nonneg) hW' one_pos hb (.inl rfl)
  have P : Performed true .symmetric lawWorld wo exIn exOutC 1 _ _ := .stockHalf S (by decide : 0 < 4) hW one_pos ha.has (.inl rfl) h1
  have P' : Performed true .symmetric lawWorld wo exIn exOutC 1 _ _ := .libraryHalf L exact_library (fun e => e.boxSize_nonneg) hW' one_pos hb.has (.inl rfl) h2
  have e1 : ∀ p x, EntryAt exIn (inputs (fun _ => false) xs) 0 p x → x = g 0 p := fun p x hx => ((entries_in S.geo.tilesIn ha one_pos p x).1 hx).2
  have e2 : ∀ p x, EntryAt exIn (inputs (fun _ => false) ys) 0 p x → x = g' 0 p := fun p x hx => ((entries_in S'.geo.tilesIn hb one_pos p x).1 hx).2
  refine ⟨wo, _, _, _, _, P, P', e1, e2, ?_⟩
  rw [C97_half P P' one_pos one_pos S.geo.complex (fun p x hx => by rw [e1 p x hx]; exact Complex.ofReal_im _) (fun p x hx => by rw [e2 p x hx]; exact Complex.ofReal_im _),
    inverse_factor (.inr (.inr ⟨rfl, rfl⟩) : Inverse .symmetric .symmetric) (by decide), Complex.ofReal_one, one_mul]

end Verif
