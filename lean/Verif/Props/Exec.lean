import Verif.FftwLemmas
import Verif.DftLemmas
import Verif.Props.Stock

/-!
# Properties C31 to C33: the executors address the lines of the local box
-/

namespace Verif
open Stock Finset
variable {α β : Type}

/-! ## C31 -/

/-- **C31.**  The entries of the lines that a one dimensional executor visits, for `w` lanes at a time, are the entries of the
array of the box, each exactly once. -/
theorem C31_each_entry_once {w : Nat} (hw : 0 < w) {b : Box} (ho : IsOrder b.order) (hb : b.empty = false) (d : Fin 3) (base : Int) :
    let dist := if d = b.order 0 then b.size d else 1
    let block := b.osize 0 * b.osize 1
    ((laneGroups w b d base dist block base dist block).flatten.flatMap fun s =>
      (List.range (b.size d).toNat).map fun (i : Nat) => s.1 + i * lineStride b d).Perm ((loop b.count).map (base + ·)) := by
  intro dist block
  have hs := SameLines.refl hb d
  obtain ⟨s1, s2, s3⟩ := laneGroups_spec hw ho hb hs hs (ibase := base) (obase := base)
    (idist := dist) (odist := dist) (iblock := block) (oblock := block) rfl (fun _ => rfl) rfl (fun _ => rfl)
  have hset : ∀ q : A3 Int, q.get d = b.low.get d → ∀ i : Nat,
      base + b.offset q + (i : Int) * lineStride b d = base + b.offset (q.set d (b.low.get d + i)) := by
    intro q hq i
    rw [offset_set ho, hq]; ring
  have inj : ∀ q q' : A3 Int, q ∈ b → q' ∈ b → q.get d = b.low.get d → q'.get d = b.low.get d → ∀ i i' : Nat,
      i < (b.size.get d).toNat → i' < (b.size.get d).toNat →
      base + b.offset q + (i : Int) * lineStride b d = base + b.offset q' + (i' : Int) * lineStride b d → q = q' ∧ i = i' := by
    intro q q' hq hq' hd hd' i i' hi hi' he
    rw [hset q hd, hset q' hd'] at he
    rw [Box.size_get] at hi hi'
    have he2 := Box.offset_inj ho (mem_set (d := d) (v := b.low d + i) hq (by omega) (by omega))
      (mem_set (d := d) (v := b.low d + i') hq' (by omega) (by omega)) (by omega)
    have h1 := congrArg (fun r => A3.get r d) he2
    simp only [A3.get_set_self] at h1
    refine ⟨?_, by omega⟩
    rw [← set_self q d (b.low d + i), he2, hd, ← hd', set_self]
  have hnd1 : ((loop b.count).map (base + ·)).Nodup := List.Nodup.map (fun a c h => by simpa using h) (loop_nodup _)
  refine (List.perm_ext_iff_of_nodup ?_ hnd1).2 fun a => ?_
  · rw [List.nodup_flatMap]
    refine ⟨fun s hs' => ?_, ?_⟩
    · obtain ⟨q, hq, hd, rfl⟩ := s1 s hs'
      refine List.Nodup.map_on ?_ List.nodup_range
      intro i hi i' hi' he
      rw [List.mem_range] at hi hi'
      exact (inj q q hq hq hd hd i i' hi hi' he).2
    · have hnd := List.Nodup.of_map _ s3
      refine (List.Pairwise.imp_of_mem ?_ hnd)
      intro s s' h1 h2 hne
      obtain ⟨q, hq, hd, rfl⟩ := s1 s h1
      obtain ⟨q', hq', hd', rfl⟩ := s1 s' h2
      rw [Function.onFun, List.disjoint_left]
      intro a ha ha'
      obtain ⟨i, hi, rfl⟩ := List.mem_map.1 ha
      obtain ⟨i', hi', he⟩ := List.mem_map.1 ha'
      rw [List.mem_range] at hi hi'
      exact hne (by rw [(inj q' q hq' hq hd' hd i' i hi' hi he).1])
  · simp only [List.mem_flatMap, List.mem_map, List.mem_range, mem_loop]
    constructor
    · rintro ⟨s, hs', i, hi, rfl⟩
      obtain ⟨q, hq, hd, rfl⟩ := s1 s hs'
      change i < (b.size.get d).toNat at hi
      rw [Box.size_get] at hi
      dsimp only
      rw [hset q hd]
      exact ⟨_, Box.offset_range ho (mem_set (d := d) (v := b.low d + i) hq (by omega) (by omega)), rfl⟩
    · rintro ⟨c, hc, rfl⟩
      obtain ⟨p, hp, rfl⟩ := Box.offset_surj ho hc.1 hc.2
      have hpd : b.low.get d ≤ p.get d ∧ p.get d ≤ b.high.get d := (Box.mem_def.1 hp d)
      have hqd : (p.set d (b.low.get d)).get d = b.low.get d := A3.get_set_self _ _ _
      have hq : p.set d (b.low.get d) ∈ b := mem_set hp le_rfl (by omega)
      refine ⟨_, s2 _ hq hqd, (p.get d - b.low.get d).toNat, ?_, ?_⟩
      · show _ < (b.size.get d).toNat
        rw [Box.size_get]; omega
      · dsimp only
        rw [offset_set ho, Int.toNat_of_nonneg (by omega)]
        ring

/-- **C31.**  If the transform of one line gives the entries `t v 0, t v 1, …` then the executor transforms every line of the
box in its direction, and touches nothing but the array of the box. -/
theorem C31_lines {w : Nat} (hw : 0 < w) {b : Box} (ho : IsOrder b.order) (hb : b.empty = false) (d : Fin 3) {base : Int}
    {T : Int × Int → List α → Res (List α)} {t : List α → Nat → α}
    (hT : ∀ s v, v.length = (b.size d).toNat → T s v = .ok ((List.range (b.size d).toNat).map (t v)))
    {mem : List α} {G : A3 Int → α} (hG : Holds b mem base G) (h0 : 0 ≤ base) (hlen : base + b.count ≤ mem.length) :
    ∃ r, execC2C w T b d base mem = .ok r ∧ r.length = mem.length ∧
      Holds b r base (along b d t G) ∧ ∀ a, (a < base ∨ base + b.count ≤ a) → rd r a = rd mem a :=
  exec_in_place hw ho hb hT hG h0 hlen

/-- The lengths for which the stock transform is the discrete Fourier transform (see C34). -/
def GoodLength (N : Nat) : Prop := ∀ q, q.Prime → 1213 < q → ¬ Reach N (q * q)

theorem goodLength_small {N : Nat} (hN : 1 ≤ N) (h : N < 1481089) : GoodLength N := reach_small hN h

/-- **C31** for the stock backend: the executor computes the discrete Fourier transform of every line. -/
theorem C31_stock {w : Nat} (hw : 0 < w) {b : Box} (ho : IsOrder b.order) (hb : b.empty = false) (d : Fin 3) {base : Int}
    (hN : GoodLength (b.size d).toNat) (fwd : Bool) (junk : Int × Int → Scratch)
    {mem : List ℂ} {G : A3 Int → ℂ} (hG : Holds b mem base G) (h0 : 0 ≤ base) (hlen : base + b.count ≤ mem.length) :
    ∃ r, execC2C w (stockLine junk (b.size d).toNat fwd) b d base mem = .ok r ∧ r.length = mem.length ∧
      Holds b r base (along b d (dft fwd) G) ∧ ∀ a, (a < base ∨ base + b.count ≤ a) → rd r a = rd mem a := by
  refine exec_in_place hw ho hb (fun s v hv => ?_) hG h0 hlen
  have := (SameLines.refl hb d).pos
  exact C34_stock_fft_is_dft (by omega) hN fwd v hv _ _

theorem holds_cast {b : Box} (ho : IsOrder b.order) {f : β → α} {src : List β} {dst : List α} {rbase cbase : Int} {G : A3 Int → β}
    (hG : Holds b src rbase G) (h0 : 0 ≤ cbase) (hlen : cbase + b.count ≤ dst.length) :
    ∃ r, writeAll ((loop b.count).map fun i => (cbase + i, (rd src (rbase + i)).map f)) dst = .ok r ∧ r.length = dst.length ∧
      Holds b r cbase (fun p => f (G p)) ∧ ∀ a, (a < cbase ∨ cbase + b.count ≤ a) → rd r a = rd dst a := by
  have hval : ∀ i, 0 ≤ i ∧ i < b.count → ∃ p, p ∈ b ∧ b.offset p = i ∧ rd src (rbase + i) = some (G p) := by
    intro i hi
    obtain ⟨p, hp, rfl⟩ := Box.offset_surj ho hi.1 hi.2
    exact ⟨p, hp, rfl, hG p hp⟩
  obtain ⟨r, r1, r2, r3, r4⟩ := writeAll_ok ((loop b.count).map fun i => (cbase + i, (rd src (rbase + i)).map f)) dst
    (by
      intro w hw
      obtain ⟨i, hi, rfl⟩ := List.mem_map.1 hw
      rw [mem_loop] at hi
      obtain ⟨p, hp, hoff, hrd⟩ := hval i hi
      dsimp only
      rw [hrd]
      refine ⟨rfl, by omega, by omega⟩)
    (by
      intro w hw u hu he
      obtain ⟨i, hi, rfl⟩ := List.mem_map.1 hw
      obtain ⟨j, hj, rfl⟩ := List.mem_map.1 hu
      dsimp only at he ⊢
      rw [show i = j by omega])
  refine ⟨r, r1, r2, fun p hp => ?_, fun a ha => r4 a fun w hw he => ?_⟩
  · have := r3 _ (List.mem_map.2 ⟨b.offset p, mem_loop.2 (Box.offset_range ho hp), rfl⟩)
    dsimp only at this
    rw [this, hG p hp]
    rfl
  · obtain ⟨i, hi, rfl⟩ := List.mem_map.1 hw
    rw [mem_loop] at hi
    dsimp only at he
    omega

/-- **C31**: the complex executor with real input. -/
theorem C31_from_real {w : Nat} (hw : 0 < w) {b : Box} (ho : IsOrder b.order) (hb : b.empty = false) (d : Fin 3) {rbase cbase : Int}
    {cast : β → α} {T : Int × Int → List α → Res (List α)} {t : List α → Nat → α}
    (hT : ∀ s v, v.length = (b.size d).toNat → T s v = .ok ((List.range (b.size d).toNat).map (t v)))
    {src : List β} {dst : List α} {G : A3 Int → β} (hG : Holds b src rbase G) (h0 : 0 ≤ cbase) (hlen : cbase + b.count ≤ dst.length) :
    ∃ r, execFromReal cast (execC2C w T b d cbase) b.count rbase cbase src dst = .ok r ∧ r.length = dst.length ∧
      Holds b r cbase (along b d t fun p => cast (G p)) ∧ ∀ a, (a < cbase ∨ cbase + b.count ≤ a) → rd r a = rd dst a := by
  obtain ⟨m, m1, m2, m3, m4⟩ := holds_cast (f := cast) ho hG h0 hlen
  obtain ⟨r, r1, r2, r3, r4⟩ := exec_in_place hw ho hb hT m3 h0 (by omega)
  refine ⟨r, ?_, r2.trans m2, r3, fun a ha => (r4 a ha).trans (m4 a ha)⟩
  unfold execFromReal
  rw [m1]
  exact r1

/-- **C31**: the complex executor with real output; the input array is changed as well. -/
theorem C31_to_real {w : Nat} (hw : 0 < w) {b : Box} (ho : IsOrder b.order) (hb : b.empty = false) (d : Fin 3) {rbase cbase : Int}
    {re : α → β} {T : Int × Int → List α → Res (List α)} {t : List α → Nat → α}
    (hT : ∀ s v, v.length = (b.size d).toNat → T s v = .ok ((List.range (b.size d).toNat).map (t v)))
    {src : List α} {dst : List β} {G : A3 Int → α} (hG : Holds b src cbase G) (h0 : 0 ≤ cbase) (hlen : cbase + b.count ≤ src.length)
    (h0' : 0 ≤ rbase) (hlen' : rbase + b.count ≤ dst.length) :
    ∃ c r, execToReal re (execC2C w T b d cbase) b.count cbase rbase src dst = .ok (c, r) ∧ r.length = dst.length ∧
      Holds b r rbase (fun p => re (along b d t G p)) ∧ (∀ a, (a < rbase ∨ rbase + b.count ≤ a) → rd r a = rd dst a) ∧
      c.length = src.length ∧ ∀ a, (a < cbase ∨ cbase + b.count ≤ a) → rd c a = rd src a := by
  obtain ⟨c, c1, c2, c3, c4⟩ := exec_in_place hw ho hb hT hG h0 hlen
  obtain ⟨r, r1, r2, r3, r4⟩ := holds_cast (f := re) ho c3 h0' hlen'
  refine ⟨c, r, ?_, r2, r3, r4, c2, c4⟩
  unfold execToReal
  rw [c1]
  simp only [bind, Except.bind, pure, Except.pure]
  rw [r1]

/-- The hypotheses of C31 are met: a box with a permuted order, four lanes and a remainder of two lines. -/
example : (execC2C 4 (fun _ v => .ok v.reverse) ⟨⟨1, 0, 0⟩, ⟨2, 2, 1⟩, ⟨1, 2, 0⟩⟩ 1 0 [0, 1, 2, 3, 4, 5, 6, 7, 8, 9, 10, 11] : Res (List Int)) =
    .ok [2, 1, 0, 5, 4, 3, 8, 7, 6, 11, 10, 9] := by decide +kernel

example : ∃ r, execC2C 4 (fun _ v => .ok v.reverse) ⟨⟨1, 0, 0⟩, ⟨2, 2, 1⟩, ⟨1, 2, 0⟩⟩ 1 0 ((List.range 12).map fun i => 7 * i + 3) = .ok r ∧
    r.length = 12 ∧
    Holds ⟨⟨1, 0, 0⟩, ⟨2, 2, 1⟩, ⟨1, 2, 0⟩⟩ r 0 (along ⟨⟨1, 0, 0⟩, ⟨2, 2, 1⟩, ⟨1, 2, 0⟩⟩ 1 (fun v i => v.getD (2 - i) 0)
      fun p => 7 * (((p.x - 1) * 2 + p.z) * 3 + p.y).toNat + 3) := by
  obtain ⟨r, r1, r2, r3, -⟩ := C31_lines (w := 4) (by decide) (b := ⟨⟨1, 0, 0⟩, ⟨2, 2, 1⟩, ⟨1, 2, 0⟩⟩) (by decide) (by decide) 1 (base := 0)
    (T := fun _ v => .ok v.reverse) (t := fun v i => v.getD (2 - i) 0)
    (fun s v hv => by
      match v, hv with
      | [a, b, c], _ => rfl)
    (mem := (List.range 12).map fun i => 7 * i + 3)
    (G := fun p => 7 * (((p.x - 1) * 2 + p.z) * 3 + p.y).toNat + 3)
    (by
      intro p hp
      have h0 := Box.mem_def.1 hp 0
      have h1 := Box.mem_def.1 hp 1
      have h2 := Box.mem_def.1 hp 2
      obtain ⟨x, y, z⟩ := p
      simp only [A3.get_zero, A3.get_one, A3.get_two] at h0 h1 h2
      obtain ⟨h0, h0'⟩ := h0
      obtain ⟨h1, h1'⟩ := h1
      obtain ⟨h2, h2'⟩ := h2
      interval_cases x <;> interval_cases y <;> interval_cases z <;> decide)
    (by decide) (by decide)
  exact ⟨r, r1, by simpa using r2, r3⟩

/-! ## C32 -/

/-- **C32.**  The real-to-complex executor reads the lines of the box and writes the shortened lines of `b.r2c d`. -/
theorem C32_r2c {w : Nat} (hw : 0 < w) {b : Box} (ho : IsOrder b.order) (hb : b.empty = false) (d : Fin 3) {rbase cbase : Int}
    {T : Int × Int → List α → Res (List β)} {t : List α → Nat → β}
    (hT : ∀ s v, v.length = (b.size d).toNat → T s v = .ok ((List.range ((b.size d).toNat / 2 + 1)).map (t v)))
    {src : List α} {dst : List β} {G : A3 Int → α} (hG : Holds b src rbase G) (h0 : 0 ≤ cbase)
    (hlen : cbase + (b.r2c d).count ≤ dst.length) :
    ∃ r, execR2C w T b d rbase cbase src dst = .ok r ∧ r.length = dst.length ∧
      Holds (b.r2c d) r cbase (along b d t G) ∧ ∀ a, (a < cbase ∨ cbase + (b.r2c d).count ≤ a) → rd r a = rd dst a := by
  unfold execR2C
  have hpos := (SameLines.refl hb d).pos
  obtain ⟨q1, q2, q3⟩ := r2c_fields hb d
  have hd := q3 d
  rw [if_pos rfl] at hd
  have hsz : ((b.size.get d + 2) / 2).toNat = ((b.r2c d).size.get d).toNat := by rw [hd]; omega
  change ∃ r, runOut T (b.size.get d).toNat ((b.size.get d + 2) / 2).toNat (lineStride b d) src _ dst = .ok r ∧ _
  rw [hsz]
  refine exec_out hw ho hb (SameLines.refl hb d) (SameLines.r2c hb d) rfl (fun _ => rfl) ?_ ?_ (fun s v hv => ?_) hG h0 hlen
  · change (if d = b.order.x then b.size.get d / 2 + 1 else 1) = _
    rw [hd]
  · intro hdy
    have hne : b.order.x ≠ d := by rw [hdy]; exact ho.1
    have e0 : (b.r2c d).osize 0 = b.osize 0 := by
      simp only [Box.osize, q2, A3.get_zero, q3, if_neg hne]
    have e1 : (b.r2c d).osize 1 = b.osize 1 / 2 + 1 := by
      simp only [Box.osize, q2, A3.get_one, q3, ← hdy, if_true]
    rw [e0, e1]
  · rw [hT s v hv, hd]
    congr 3
    omega

/-- **C32.**  The complex-to-real executor reads the lines of `b.r2c d` and writes those of the box. -/
theorem C32_c2r {w : Nat} (hw : 0 < w) {b : Box} (ho : IsOrder b.order) (hb : b.empty = false) (d : Fin 3) {rbase cbase : Int}
    {T : Int × Int → List α → Res (List β)} {t : List α → Nat → β}
    (hT : ∀ s v, v.length = (b.size d).toNat / 2 + 1 → T s v = .ok ((List.range (b.size d).toNat).map (t v)))
    {src : List α} {dst : List β} {G : A3 Int → α} (hG : Holds (b.r2c d) src cbase G) (h0 : 0 ≤ rbase)
    (hlen : rbase + b.count ≤ dst.length) :
    ∃ r, execC2R w T b d cbase rbase src dst = .ok r ∧ r.length = dst.length ∧
      Holds b r rbase (along (b.r2c d) d t G) ∧ ∀ a, (a < rbase ∨ rbase + b.count ≤ a) → rd r a = rd dst a := by
  unfold execC2R
  have hpos := (SameLines.refl hb d).pos
  obtain ⟨q1, q2, q3⟩ := r2c_fields hb d
  have hd := q3 d
  rw [if_pos rfl] at hd
  have hsz : ((b.size.get d + 2) / 2).toNat = ((b.r2c d).size.get d).toNat := by rw [hd]; omega
  change ∃ r, runOut T ((b.size.get d + 2) / 2).toNat (b.size.get d).toNat (lineStride b d) src _ dst = .ok r ∧ _
  rw [hsz]
  refine exec_out hw ho hb (SameLines.r2c hb d) (SameLines.refl hb d) ?_ ?_ rfl (fun _ => rfl) (fun s v hv => ?_) hG h0 hlen
  · change (if d = b.order.x then b.size.get d / 2 + 1 else 1) = _
    rw [hd]
  · intro hdy
    have hne : b.order.x ≠ d := by rw [hdy]; exact ho.1
    have e0 : (b.r2c d).osize 0 = b.osize 0 := by
      simp only [Box.osize, q2, A3.get_zero, q3, if_neg hne]
    have e1 : (b.r2c d).osize 1 = b.osize 1 / 2 + 1 := by
      simp only [Box.osize, q2, A3.get_one, q3, ← hdy, if_true]
    rw [e0, e1]
  · refine hT s v ?_
    rw [hv, hd]
    omega

/-- **C32** for the stock backend, forward: the first half of the transform of each line. -/
theorem C32_stock_r2c {w : Nat} (hw : 0 < w) {b : Box} (ho : IsOrder b.order) (hb : b.empty = false) (d : Fin 3) {rbase cbase : Int}
    (hN : GoodLength (b.size d).toNat) (junk : Int × Int → Scratch)
    {src : List ℝ} {dst : List ℂ} {G : A3 Int → ℝ} (hG : Holds b src rbase G) (h0 : 0 ≤ cbase)
    (hlen : cbase + (b.r2c d).count ≤ dst.length) :
    ∃ r, execR2C w (stockR2C junk (b.size d).toNat) b d rbase cbase src dst = .ok r ∧ r.length = dst.length ∧
      Holds (b.r2c d) r cbase (along b d r2c G) ∧ ∀ a, (a < cbase ∨ cbase + (b.r2c d).count ≤ a) → rd r a = rd dst a := by
  have hpos : 0 < (b.size d).toNat := by
    have := (SameLines.refl hb d).pos
    change 0 < (b.size.get d).toNat; omega
  refine C32_r2c hw ho hb d (fun s v hv => ?_) hG h0 hlen
  rw [stockR2C_eq hpos (fun v hv out0 W => C34_stock_fft_is_dft hpos hN true v hv out0 W) junk s v hv]
  congr 3
  omega

/-- **C32** for the stock backend, backward. -/
theorem C32_stock_c2r {w : Nat} (hw : 0 < w) {b : Box} (ho : IsOrder b.order) (hb : b.empty = false) (d : Fin 3) {rbase cbase : Int}
    (hN : GoodLength (b.size d).toNat) (junk : Int × Int → Scratch) (inp : Int × Int → Arr ℂ)
    {src : List ℂ} {dst : List ℝ} {G : A3 Int → ℂ} (hG : Holds (b.r2c d) src cbase G) (h0 : 0 ≤ rbase)
    (hlen : rbase + b.count ≤ dst.length) :
    ∃ r, execC2R w (stockC2R junk inp (b.size d).toNat) b d cbase rbase src dst = .ok r ∧ r.length = dst.length ∧
      Holds b r rbase (along (b.r2c d) d (c2r (b.size d).toNat) G) ∧ ∀ a, (a < rbase ∨ rbase + b.count ≤ a) → rd r a = rd dst a := by
  have hpos : 0 < (b.size d).toNat := by
    have := (SameLines.refl hb d).pos
    change 0 < (b.size.get d).toNat; omega
  refine C32_c2r hw ho hb d (fun s v hv => ?_) hG h0 hlen
  exact stockC2R_eq hpos (fun v hv out0 W => C34_stock_fft_is_dft hpos hN false v hv out0 W) junk inp s v (by rw [hv]; omega)

/-- A box with a permuted order where the shortened direction is the second fastest: the lines have 4 and 3 entries. -/
example : (execR2C 2 (fun _ v => .ok (v.take 3)) ⟨⟨0, 0, 0⟩, ⟨1, 3, 1⟩, ⟨2, 1, 0⟩⟩ 1 0 0
    [0, 1, 2, 3, 4, 5, 6, 7, 8, 9, 10, 11, 12, 13, 14, 15] (List.replicate 12 0) : Res (List Int)) =
    .ok [0, 1, 2, 3, 4, 5, 8, 9, 10, 11, 12, 13] := by decide +kernel

example (junk : Int × Int → Scratch) (G : A3 Int → ℝ) (src : List ℝ) (hG : Holds ⟨⟨0, 0, 0⟩, ⟨1, 3, 1⟩, ⟨2, 1, 0⟩⟩ src 5 G) :
    ∃ r, execR2C 4 (stockR2C junk 4) ⟨⟨0, 0, 0⟩, ⟨1, 3, 1⟩, ⟨2, 1, 0⟩⟩ 1 5 0 src (List.replicate 12 0) = .ok r ∧ r.length = 12 ∧
      Holds ⟨⟨0, 0, 0⟩, ⟨1, 2, 1⟩, ⟨2, 1, 0⟩⟩ r 0 (along ⟨⟨0, 0, 0⟩, ⟨1, 3, 1⟩, ⟨2, 1, 0⟩⟩ 1 r2c G) := by
  obtain ⟨r, r1, r2, r3, -⟩ := C32_stock_r2c (w := 4) (by decide) (b := ⟨⟨0, 0, 0⟩, ⟨1, 3, 1⟩, ⟨2, 1, 0⟩⟩) (by decide) (by decide) 1
    (cbase := 0) (goodLength_small (by decide) (by decide)) junk hG (dst := List.replicate 12 0) (by decide) (by simp; decide)
  exact ⟨r, r1, by rw [r2]; rfl, r3⟩

/-! ## C39 -/

theorem lineOf_length (b : Box) (d : Fin 3) (G : A3 Int → α) (p : A3 Int) : (lineOf b d G p).length = (b.size d).toNat := by
  unfold lineOf
  rw [List.length_map, List.length_range]
  show _ = (b.size.get d).toNat
  rw [Box.size_get]

theorem lineOf_getD {b : Box} {d : Fin 3} (G : A3 Int → α) {p : A3 Int} (hp : p ∈ b) (z : α) :
    (lineOf b d G p).getD (p d - b.low d).toNat z = G p := by
  have hpd := Box.mem_def.1 hp d
  unfold lineOf
  rw [getD_range_map _ _ (by omega), Int.toNat_of_nonneg (by omega)]
  congr 1
  ext e
  rw [A3.get_set]
  split
  · rename_i h; rw [h]; omega
  · rfl

theorem lineOf_along {b c : Box} {d : Fin 3} (h : c.low = b.low) (t : List α → Nat → β) (G : A3 Int → α) (p : A3 Int) :
    lineOf c d (along b d t G) p = (List.range (c.size d).toNat).map (t (lineOf b d G p)) := by
  unfold lineOf
  rw [show (c.high d - c.low d + 1) = c.size d from (Box.size_get c d).symm]
  refine List.map_congr_left fun i _ => ?_
  unfold along
  rw [lineOf_set, A3.get_set_self, h, add_sub_cancel_left, Int.toNat_natCast]
  rfl

/-- **C39** for one line: all real data can be recovered from the first `n / 2 + 1` entries of the spectrum, `n` even or odd. -/
theorem C39_line {v : List ℝ} {j : Nat} (hj : j < v.length) :
    c2r v.length ((List.range (v.length / 2 + 1)).map (r2c v)) j = v.length * v.getD j 0 := c2r_r2c hj

/-- **C39** for the executors of the stock backend: the complex-to-real transform of the real-to-complex transform is the data times
the number of entries in the direction. -/
theorem C39_round_trip {w : Nat} (hw : 0 < w) {b : Box} (ho : IsOrder b.order) (hb : b.empty = false) (d : Fin 3) {rbase cbase obase : Int}
    (hN : GoodLength (b.size d).toNat) (junk junk' : Int × Int → Scratch) (inp : Int × Int → Arr ℂ)
    {src : List ℝ} {dst : List ℂ} {fin : List ℝ} {G : A3 Int → ℝ} (hG : Holds b src rbase G) (h0 : 0 ≤ cbase)
    (hlen : cbase + (b.r2c d).count ≤ dst.length) (h0' : 0 ≤ obase) (hlen' : obase + b.count ≤ fin.length) :
    ∃ m r, execR2C w (stockR2C junk (b.size d).toNat) b d rbase cbase src dst = .ok m ∧
      execC2R w (stockC2R junk' inp (b.size d).toNat) b d cbase obase m fin = .ok r ∧
      Holds b r obase fun p => (b.size d).toNat * G p := by
  obtain ⟨m, m1, -, m3, -⟩ := C32_stock_r2c hw ho hb d hN junk hG h0 hlen
  obtain ⟨r, r1, -, r3, -⟩ := C32_stock_c2r hw ho hb d hN junk' inp m3 h0' hlen'
  refine ⟨m, r, m1, r1, fun p hp => ?_⟩
  rw [r3 p hp]
  obtain ⟨q1, q2, q3⟩ := r2c_fields hb d
  have hd := q3 d
  rw [if_pos rfl] at hd
  have hpd := Box.mem_def.1 hp d
  have hsz : ((b.r2c d).size d).toNat = (b.size d).toNat / 2 + 1 := by
    show ((b.r2c d).size.get d).toNat = _
    have := (SameLines.refl hb d).pos
    rw [hd]
    omega
  have hlt : (p d - b.low d).toNat < (lineOf b d G p).length := by
    rw [lineOf_length]
    show _ < (b.size.get d).toNat
    rw [Box.size_get]; omega
  congr 1
  show c2r _ (lineOf (b.r2c d) d (along b d r2c G) p) (p d - (b.r2c d).low d).toNat = _
  rw [q1, lineOf_along q1, hsz]
  have := C39_line hlt
  rw [lineOf_length, lineOf_getD G hp] at this
  exact this

example (junk junk' : Int × Int → Scratch) (inp : Int × Int → Arr ℂ) (G : A3 Int → ℝ) (src : List ℝ)
    (hG : Holds ⟨⟨0, 0, 0⟩, ⟨1, 4, 1⟩, ⟨2, 1, 0⟩⟩ src 5 G) :
    ∃ m r, execR2C 4 (stockR2C junk 5) ⟨⟨0, 0, 0⟩, ⟨1, 4, 1⟩, ⟨2, 1, 0⟩⟩ 1 5 0 src (List.replicate 12 0) = .ok m ∧
      execC2R 4 (stockC2R junk' inp 5) ⟨⟨0, 0, 0⟩, ⟨1, 4, 1⟩, ⟨2, 1, 0⟩⟩ 1 0 0 m (List.replicate 20 0) = .ok r ∧
      Holds ⟨⟨0, 0, 0⟩, ⟨1, 4, 1⟩, ⟨2, 1, 0⟩⟩ r 0 fun p => (5 : Nat) * G p :=
  C39_round_trip (w := 4) (by decide) (b := ⟨⟨0, 0, 0⟩, ⟨1, 4, 1⟩, ⟨2, 1, 0⟩⟩) (by decide) (by decide) 1
    (goodLength_small (by decide) (by decide)) junk junk' inp hG (by decide) (by simp; decide) (by decide) (by simp; decide)

/-! ## C33 -/

/-- **C33**, two directions: true for boxes with the standard order.  Not true for every order, see `C33_false_2d`. -/
theorem C33_fftw_2d_partial {b : Box} (h : b.order = ⟨0, 1, 2⟩) (hb : b.empty = false) {d1 d2 : Fin 3} (hd : d1 ≠ d2) {base : Int}
    {T : Nat → Int × Int → List α → Res (List α)} {t : Nat → List α → Nat → α}
    (hT : ∀ n s v, v.length = n → T n s v = .ok ((List.range n).map (t n v)))
    {mem : List α} {G : A3 Int → α} (hG : Holds b mem base G) (h0 : 0 ≤ base) (hlen : base + b.count ≤ mem.length) :
    ∃ r, fftwExec2 T b d1 d2 base mem = .ok r ∧ r.length = mem.length ∧
      Holds b r base (along b (max d1 d2) (t (b.size (max d1 d2)).toNat) (along b (min d1 d2) (t (b.size (min d1 d2)).toNat) G)) ∧
      ∀ a, (a < base ∨ base + b.count ≤ a) → rd r a = rd mem a :=
  fftwExec2_ok h hb hd (fun _ _ s v => hT _ s v) hG h0 hlen

/-- **C33**, three directions: true for boxes with the standard order.  Not true for every order, see `C33_false_3d`. -/
theorem C33_fftw_3d_partial {b : Box} (h : b.order = ⟨0, 1, 2⟩) (hb : b.empty = false) {base : Int}
    {T : Nat → Int × Int → List α → Res (List α)} {t : Nat → List α → Nat → α}
    (hT : ∀ n s v, v.length = n → T n s v = .ok ((List.range n).map (t n v)))
    {mem : List α} {G : A3 Int → α} (hG : Holds b mem base G) (h0 : 0 ≤ base) (hlen : base + b.count ≤ mem.length) :
    ∃ r, fftwExec3 T b base mem = .ok r ∧ r.length = mem.length ∧
      Holds b r base (along b 2 (t (b.size 2).toNat) (along b 1 (t (b.size 1).toNat) (along b 0 (t (b.size 0).toNat) G))) ∧
      ∀ a, (a < base ∨ base + b.count ≤ a) → rd r a = rd mem a :=
  fftwExec3_ok h hb (fun _ s v => hT _ s v) hG h0 hlen

/-- The hypotheses of C33 are met: rows reversed and columns reversed. -/
example : (fftwExec2 (fun _ _ v => .ok v.reverse) ⟨⟨0, 0, 0⟩, ⟨2, 1, 1⟩, ⟨0, 1, 2⟩⟩ 2 0 0 [0, 1, 2, 3, 4, 5, 6, 7, 8, 9, 10, 11] : Res (List Int)) =
    .ok [8, 7, 6, 11, 10, 9, 2, 1, 0, 5, 4, 3] := by decide +kernel

example : (fftwExec3 (fun _ _ v => .ok v.reverse) ⟨⟨0, 0, 0⟩, ⟨2, 1, 1⟩, ⟨0, 1, 2⟩⟩ 0 [0, 1, 2, 3, 4, 5, 6, 7, 8, 9, 10, 11] : Res (List Int)) =
    .ok [11, 10, 9, 8, 7, 6, 5, 4, 3, 2, 1, 0] := by decide +kernel

/-- Lines transformed by the forward discrete Fourier transform. -/
noncomputable def dftLine (n : Nat) (_ : Int × Int) (v : List ℂ) : Res (List ℂ) := .ok ((List.range n).map (dft true v))

theorem root_four : root true 4 1 = -Complex.I := by
  rw [← om_eq_root, complexTw_ok.four_fwd]; rfl

theorem root_two : root true 2 1 = -1 := by
  have := root_pow true 4 1 2
  rw [root_four, one_mul, show (2 : Nat) = 2 * 1 from rfl, show (4 : Nat) = 2 * 2 from rfl, root_scale true (by decide)] at this
  rw [← this]
  simp

theorem set_x (x y z v : Int) : A3.set ⟨x, y, z⟩ 0 v = ⟨v, y, z⟩ := rfl
theorem set_y (x y z v : Int) : A3.set ⟨x, y, z⟩ 1 v = ⟨x, v, z⟩ := rfl
theorem set_z (x y z v : Int) : A3.set ⟨x, y, z⟩ 2 v = ⟨x, y, v⟩ := rfl

theorem unit_entry {b : Box} {g : A3 Int → Int} {m : List Int} (h : Holds b m 0 g) :
    Holds b (m.map fun (x : Int) => (x : ℂ)) 0 (fun p => (g p : ℂ)) := by
  intro p hp
  have := h p hp
  unfold rd at this ⊢
  split at this
  · rename_i h0
    rw [if_pos h0, List.getElem?_map, this]
    rfl
  · cases this

/-- The executor with three directions ignores the order of the box: for a box of size 1 × 2 × 4 with the last direction fastest the
transform of a unit vector has -1 in place of -i. -/
theorem C33_false_3d : ∃ (b : Box) (mem : List ℂ) (G : A3 Int → ℂ) (r : List ℂ), IsOrder b.order ∧ b.empty = false ∧
    mem.length = b.count ∧ Holds b mem 0 G ∧ fftwExec3 dftLine b 0 mem = .ok r ∧
    ¬ Holds b r 0 (along b 2 (dft true) (along b 1 (dft true) (along b 0 (dft true) G))) := by
  have hG : Holds ⟨⟨0, 0, 0⟩, ⟨0, 1, 3⟩, ⟨2, 1, 0⟩⟩ [0, 1, 0, 0, 0, 0, 0, 0] 0 (fun p => if p = ⟨0, 0, 1⟩ then (1 : Int) else 0) := by
    intro p hp
    obtain ⟨h0, h0'⟩ := Box.mem_def.1 hp 0
    obtain ⟨h1, h1'⟩ := Box.mem_def.1 hp 1
    obtain ⟨h2, h2'⟩ := Box.mem_def.1 hp 2
    obtain ⟨x, y, z⟩ := p
    simp only [A3.get_zero, A3.get_one, A3.get_two] at h0 h1 h2 h0' h1' h2'
    interval_cases x <;> interval_cases y <;> interval_cases z <;> decide
  have hG' : Holds ⟨⟨0, 0, 0⟩, ⟨0, 1, 3⟩, ⟨0, 1, 2⟩⟩ [0, 1, 0, 0, 0, 0, 0, 0] 0 (fun p => if p = ⟨0, 1, 0⟩ then (1 : Int) else 0) := by
    intro p hp
    obtain ⟨h0, h0'⟩ := Box.mem_def.1 hp 0
    obtain ⟨h1, h1'⟩ := Box.mem_def.1 hp 1
    obtain ⟨h2, h2'⟩ := Box.mem_def.1 hp 2
    obtain ⟨x, y, z⟩ := p
    simp only [A3.get_zero, A3.get_one, A3.get_two] at h0 h1 h2 h0' h1' h2'
    interval_cases x <;> interval_cases y <;> interval_cases z <;> decide
  obtain ⟨r, r1, -, r3, -⟩ := C33_fftw_3d_partial (b := ⟨⟨0, 0, 0⟩, ⟨0, 1, 3⟩, ⟨0, 1, 2⟩⟩) rfl (by decide) (T := dftLine) (t := fun _ => dft true)
    (fun n s v _ => rfl) (unit_entry hG') (by decide) (by rw [List.length_map]; decide)
  refine ⟨⟨⟨0, 0, 0⟩, ⟨0, 1, 3⟩, ⟨2, 1, 0⟩⟩, _, _, r, by decide, by decide, ?_, unit_entry hG, r1, fun h => ?_⟩
  · rw [List.length_map]; decide
  have e1 := r3 ⟨0, 1, 0⟩ (by decide)
  have e2 := h ⟨0, 0, 1⟩ (by decide)
  rw [show (0 : Int) + Box.offset ⟨⟨0, 0, 0⟩, ⟨0, 1, 3⟩, ⟨0, 1, 2⟩⟩ ⟨0, 1, 0⟩ = 1 from by decide] at e1
  rw [show (0 : Int) + Box.offset ⟨⟨0, 0, 0⟩, ⟨0, 1, 3⟩, ⟨2, 1, 0⟩⟩ ⟨0, 0, 1⟩ = 1 from by decide, e1] at e2
  simp [along, lineOf, dft, sum_range_succ, List.range_succ, root_zero, root_four, root_two, set_x, set_y, set_z] at e2
  have := congrArg Complex.re e2
  simp at this

/-- The executor with two directions ignores the order of the box: size 2 × 4 × 1 with the second direction fastest. -/
theorem C33_false_2d : ∃ (b : Box) (mem : List ℂ) (G : A3 Int → ℂ) (r : List ℂ), IsOrder b.order ∧ b.empty = false ∧
    mem.length = b.count ∧ Holds b mem 0 G ∧ fftwExec2 dftLine b 0 1 0 mem = .ok r ∧
    ¬ Holds b r 0 (along b 1 (dft true) (along b 0 (dft true) G)) := by
  have hG : Holds ⟨⟨0, 0, 0⟩, ⟨1, 3, 0⟩, ⟨1, 0, 2⟩⟩ [0, 1, 0, 0, 0, 0, 0, 0] 0 (fun p => if p = ⟨0, 1, 0⟩ then (1 : Int) else 0) := by
    intro p hp
    obtain ⟨h0, h0'⟩ := Box.mem_def.1 hp 0
    obtain ⟨h1, h1'⟩ := Box.mem_def.1 hp 1
    obtain ⟨h2, h2'⟩ := Box.mem_def.1 hp 2
    obtain ⟨x, y, z⟩ := p
    simp only [A3.get_zero, A3.get_one, A3.get_two] at h0 h1 h2 h0' h1' h2'
    interval_cases x <;> interval_cases y <;> interval_cases z <;> decide
  have hG' : Holds ⟨⟨0, 0, 0⟩, ⟨1, 3, 0⟩, ⟨0, 1, 2⟩⟩ [0, 1, 0, 0, 0, 0, 0, 0] 0 (fun p => if p = ⟨1, 0, 0⟩ then (1 : Int) else 0) := by
    intro p hp
    obtain ⟨h0, h0'⟩ := Box.mem_def.1 hp 0
    obtain ⟨h1, h1'⟩ := Box.mem_def.1 hp 1
    obtain ⟨h2, h2'⟩ := Box.mem_def.1 hp 2
    obtain ⟨x, y, z⟩ := p
    simp only [A3.get_zero, A3.get_one, A3.get_two] at h0 h1 h2 h0' h1' h2'
    interval_cases x <;> interval_cases y <;> interval_cases z <;> decide
  obtain ⟨r, r1, -, r3, -⟩ := C33_fftw_2d_partial (b := ⟨⟨0, 0, 0⟩, ⟨1, 3, 0⟩, ⟨0, 1, 2⟩⟩) rfl (by decide) (d1 := 0) (d2 := 1) (by decide)
    (T := dftLine) (t := fun _ => dft true)
    (fun n s v _ => rfl) (unit_entry hG') (by decide) (by rw [List.length_map]; decide)
  refine ⟨⟨⟨0, 0, 0⟩, ⟨1, 3, 0⟩, ⟨1, 0, 2⟩⟩, _, _, r, by decide, by decide, ?_, unit_entry hG, r1, fun h => ?_⟩
  · rw [List.length_map]; decide
  have e1 := r3 ⟨1, 0, 0⟩ (by decide)
  have e2 := h ⟨0, 1, 0⟩ (by decide)
  rw [show (0 : Int) + Box.offset ⟨⟨0, 0, 0⟩, ⟨1, 3, 0⟩, ⟨0, 1, 2⟩⟩ ⟨1, 0, 0⟩ = 1 from by decide,
    show max (0 : Fin 3) 1 = 1 from rfl, show min (0 : Fin 3) 1 = 0 from rfl] at e1
  rw [show (0 : Int) + Box.offset ⟨⟨0, 0, 0⟩, ⟨1, 3, 0⟩, ⟨1, 0, 2⟩⟩ ⟨0, 1, 0⟩ = 1 from by decide, e1] at e2
  simp [along, lineOf, dft, sum_range_succ, List.range_succ, root_zero, root_four, root_two, set_x, set_y] at e2
  have := congrArg Complex.re e2
  simp at this

/-- With another order the executor with two directions also takes the wrong number of transforms, and leaves the array: size 1 × 1 × 2
with the order (1, 2, 0) and the directions 1 and 2. -/
theorem C33_out_of_bounds (T : Nat → Int × Int → List α → Res (List α)) (t : Nat → List α → Nat → α)
    (hT : ∀ n s v, v.length = n → T n s v = .ok ((List.range n).map (t n v))) (x y : α) :
    fftwExec2 T ⟨⟨0, 0, 0⟩, ⟨0, 0, 1⟩, ⟨1, 2, 0⟩⟩ 1 2 0 [x, y] = .error .ub := by
  have h1 : ∀ s z, T 1 s [z] = .ok [t 1 [z] 0] := fun s z => hT 1 s [z] rfl
  show fftwRank2 T 2 1 1 2 1 2 0 [x, y] = _
  unfold fftwRank2 linePass
  have hl : (loop 2).flatMap (fun p => (loop 2).map fun j => (0 : Int) + p * 2 + 1 * (j * 1)) = [0, 1, 2, 3] := by decide
  rw [hl]
  simp only [List.map_cons, List.map_nil, runInPlace, runGroup, runLine, readLine, List.mapM_cons, List.mapM_nil]
  simp [rd, h1, List.range_succ, writeAll, wr, bind, Except.bind, pure, Except.pure]

end Verif
