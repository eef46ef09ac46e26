import Verif.ExecGeom
import Verif.ExecLines

namespace Verif
variable {α : Type}

theorem isOrder_std : IsOrder ⟨0, 1, 2⟩ := by decide

/-- The first entries of the lines by their other two coordinates, the slower one first; standard order. -/
def face3 (b : Box) (d : Fin 3) (u v : Int) : A3 Int :=
  match d with
  | 0 => b.at u v 0
  | 1 => b.at u 0 v
  | 2 => b.at 0 u v

def slowSize (b : Box) (d : Fin 3) : Int := match d with | 0 => b.size 2 | 1 => b.size 2 | 2 => b.size 1
def fastSize (b : Box) (d : Fin 3) : Int := match d with | 0 => b.size 1 | 1 => b.size 0 | 2 => b.size 0

variable {b : Box}

theorem std_osize (h : b.order = ⟨0, 1, 2⟩) : b.osize 0 = b.size 0 ∧ b.osize 1 = b.size 1 ∧ b.osize 2 = b.size 2 := by
  simp [Box.osize, h]

theorem face3_mem (h : b.order = ⟨0, 1, 2⟩) (hb : b.empty = false) (d : Fin 3) {u v : Int} (hu : 0 ≤ u ∧ u < slowSize b d)
    (hv : 0 ≤ v ∧ v < fastSize b d) : face3 b d u v ∈ b ∧ (face3 b d u v).get d = b.low.get d := by
  have hor : IsOrder b.order := by rw [h]; exact isOrder_std
  have p0 := osize_pos hb 0
  have p1 := osize_pos hb 1
  have p2 := osize_pos hb 2
  obtain ⟨e0, e1, e2⟩ := std_osize h
  have hx : b.order.x = 0 := by rw [h]
  have hy : b.order.y = 1 := by rw [h]
  have hz : b.order.z = 2 := by rw [h]
  match d with
  | 0 =>
    refine ⟨(Box.mem_at hor).2 ⟨_, _, _, by rw [e2]; exact hu, by rw [e1]; exact hv, ⟨le_rfl, p0⟩, rfl⟩, ?_⟩
    have := b.at_x hor u v 0
    rw [hx, add_zero] at this; exact this
  | 1 =>
    refine ⟨(Box.mem_at hor).2 ⟨_, _, _, by rw [e2]; exact hu, ⟨le_rfl, p1⟩, by rw [e0]; exact hv, rfl⟩, ?_⟩
    have := b.at_y hor u 0 v
    rw [hy, add_zero] at this; exact this
  | 2 =>
    refine ⟨(Box.mem_at hor).2 ⟨_, _, _, ⟨le_rfl, p2⟩, by rw [e1]; exact hu, by rw [e0]; exact hv, rfl⟩, ?_⟩
    have := b.at_z 0 u v
    rw [hz, add_zero] at this; exact this

theorem face3_surj (h : b.order = ⟨0, 1, 2⟩) (d : Fin 3) (q : A3 Int) (hq : q ∈ b) (hd : q.get d = b.low.get d) :
    ∃ u v, (0 ≤ u ∧ u < slowSize b d) ∧ (0 ≤ v ∧ v < fastSize b d) ∧ face3 b d u v = q := by
  have hor : IsOrder b.order := by rw [h]; exact isOrder_std
  obtain ⟨e0, e1, e2⟩ := std_osize h
  have hx : b.order.x = 0 := by rw [h]
  have hy : b.order.y = 1 := by rw [h]
  have hz : b.order.z = 2 := by rw [h]
  obtain ⟨i, j, k, hi, hj, hk, rfl⟩ := (Box.mem_at hor).1 hq
  rw [e2] at hi
  rw [e1] at hj
  rw [e0] at hk
  match d with
  | 0 =>
    have := b.at_x hor i j k
    rw [hx] at this
    exact ⟨i, j, hi, hj, by show b.at i j 0 = _; rw [show k = 0 by omega]⟩
  | 1 =>
    have := b.at_y hor i j k
    rw [hy] at this
    exact ⟨i, k, hi, hk, by show b.at i 0 k = _; rw [show j = 0 by omega]⟩
  | 2 =>
    have := b.at_z i j k
    rw [hz] at this
    exact ⟨j, k, hj, hk, by show b.at 0 j k = _; rw [show i = 0 by omega]⟩

theorem face3_inj (h : b.order = ⟨0, 1, 2⟩) (d : Fin 3) {u v u' v' : Int} (he : face3 b d u v = face3 b d u' v') : u = u' ∧ v = v' := by
  have hor : IsOrder b.order := by rw [h]; exact isOrder_std
  match d with
  | 0 => obtain ⟨h1, h2, -⟩ := at_inj hor he; exact ⟨h1, h2⟩
  | 1 => obtain ⟨h1, -, h2⟩ := at_inj hor he; exact ⟨h1, h2⟩
  | 2 => obtain ⟨-, h1, h2⟩ := at_inj hor he; exact ⟨h1, h2⟩

theorem face3_offset (h : b.order = ⟨0, 1, 2⟩) (d : Fin 3) (u v : Int) : b.offset (face3 b d u v) =
    match d with
    | 0 => (u * b.size 1 + v) * b.size 0
    | 1 => u * b.size 1 * b.size 0 + v
    | 2 => u * b.size 0 + v := by
  have hor : IsOrder b.order := by rw [h]; exact isOrder_std
  obtain ⟨e0, e1, e2⟩ := std_osize h
  match d with
  | 0 => show b.offset (b.at u v 0) = _; rw [Box.offset_at_self hor, e0, e1, add_zero]
  | 1 => show b.offset (b.at u 0 v) = _; rw [Box.offset_at_self hor, e0, e1, add_zero]
  | 2 => show b.offset (b.at 0 u v) = _; rw [Box.offset_at_self hor, e0, e1, zero_mul, zero_add]

variable {base : Int} {T : Int × Int → List α → Res (List α)} {t : List α → Nat → α} {mem : List α} {G : A3 Int → α}

theorem linePass_uv (h : b.order = ⟨0, 1, 2⟩) (hb : b.empty = false) (d : Fin 3)
    (hT : ∀ s v, v.length = (b.size.get d).toNat → T s v = .ok ((List.range (b.size.get d).toNat).map (t v)))
    (hG : Holds b mem base G) (h0 : 0 ≤ base) (hlen : base + b.count ≤ mem.length)
    {addr : Int → Int → Int} (ha : ∀ u v, addr u v = base + b.offset (face3 b d u v)) {stride : Int} (hst : stride = lineStride b d) :
    ∃ r, linePass T (b.size.get d) stride ((loop (slowSize b d)).flatMap fun u => (loop (fastSize b d)).map fun v => addr u v) mem = .ok r ∧
      r.length = mem.length ∧ Holds b r base (along b d t G) ∧ ∀ a, (a < base ∨ base + b.count ≤ a) → rd r a = rd mem a := by
  have hor : IsOrder b.order := by rw [h]; exact isOrder_std
  rw [hst]
  obtain ⟨s1, s2, s3⟩ := nest_spec hor (d := d) (base := base) (addr := addr) (f := face3 b d)
    (fun u v hu hv => ⟨(face3_mem h hb d hu hv).1, (face3_mem h hb d hu hv).2, ha u v⟩)
    (face3_surj h d) (fun u v u' v' he => face3_inj h d he)
  exact pass_ok hor s1 s2 s3 hT hG h0 hlen

theorem linePass_vu (h : b.order = ⟨0, 1, 2⟩) (hb : b.empty = false) (d : Fin 3)
    (hT : ∀ s v, v.length = (b.size.get d).toNat → T s v = .ok ((List.range (b.size.get d).toNat).map (t v)))
    (hG : Holds b mem base G) (h0 : 0 ≤ base) (hlen : base + b.count ≤ mem.length)
    {addr : Int → Int → Int} (ha : ∀ u v, addr v u = base + b.offset (face3 b d u v)) {stride : Int} (hst : stride = lineStride b d) :
    ∃ r, linePass T (b.size.get d) stride ((loop (fastSize b d)).flatMap fun v => (loop (slowSize b d)).map fun u => addr v u) mem = .ok r ∧
      r.length = mem.length ∧ Holds b r base (along b d t G) ∧ ∀ a, (a < base ∨ base + b.count ≤ a) → rd r a = rd mem a := by
  have hor : IsOrder b.order := by rw [h]; exact isOrder_std
  rw [hst]
  obtain ⟨s1, s2, s3⟩ := nest_spec hor (d := d) (base := base) (addr := addr) (f := fun v u => face3 b d u v)
    (fun v u hv hu => ⟨(face3_mem h hb d hu hv).1, (face3_mem h hb d hu hv).2, ha u v⟩)
    (fun q hq hd => by
      obtain ⟨u, v, hu, hv, he⟩ := face3_surj h d q hq hd
      exact ⟨v, u, hv, hu, he⟩)
    (fun v u v' u' he => (face3_inj h d he).symm)
  exact pass_ok hor s1 s2 s3 hT hG h0 hlen

theorem std_stride (h : b.order = ⟨0, 1, 2⟩) : lineStride b 0 = 1 ∧ lineStride b 1 = b.size 0 ∧ lineStride b 2 = b.size 0 * b.size 1 := by
  obtain ⟨e0, e1, e2⟩ := std_osize h
  rw [lineStride_eq, lineStride_eq, lineStride_eq, h, e0, e1]
  exact ⟨rfl, rfl, rfl⟩

variable {TT : Nat → Int × Int → List α → Res (List α)} {tt : Nat → List α → Nat → α}

theorem fftwExec2_ok (h : b.order = ⟨0, 1, 2⟩) (hb : b.empty = false) {d1 d2 : Fin 3} (hd : d1 ≠ d2)
    (hT : ∀ d : Fin 3, d = d1 ∨ d = d2 → ∀ s v, v.length = (b.size.get d).toNat →
      TT (b.size.get d).toNat s v = .ok ((List.range (b.size.get d).toNat).map (tt (b.size.get d).toNat v)))
    (hG : Holds b mem base G) (h0 : 0 ≤ base) (hlen : base + b.count ≤ mem.length) :
    ∃ r, fftwExec2 TT b d1 d2 base mem = .ok r ∧ r.length = mem.length ∧
      Holds b r base (along b (max d1 d2) (tt (b.size.get (max d1 d2)).toNat) (along b (min d1 d2) (tt (b.size.get (min d1 d2)).toNat) G)) ∧
      ∀ a, (a < base ∨ base + b.count ≤ a) → rd r a = rd mem a := by
  obtain ⟨t0, t1, t2⟩ := std_stride h
  let P : Fin 3 → Prop := fun d => ∀ s v, v.length = (b.size.get d).toNat →
    TT (b.size.get d).toNat s v = .ok ((List.range (b.size.get d).toNat).map (tt (b.size.get d).toNat v))
  have key : ∀ lo hi : Fin 3, ∀ n0 n1 e1 howmany stride dist : Int, n1 = b.size.get lo → n0 = b.size.get hi →
      (∀ mem : List α, ∀ G, Holds b mem base G → base + b.count ≤ mem.length →
        ∃ r, linePass (TT n1.toNat) n1 stride ((loop howmany).flatMap fun p => (loop n0).map fun j => base + p * dist + stride * (j * e1)) mem = .ok r ∧
          r.length = mem.length ∧ Holds b r base (along b lo (tt (b.size.get lo).toNat) G) ∧ ∀ a, (a < base ∨ base + b.count ≤ a) → rd r a = rd mem a) →
      (∀ mem : List α, ∀ G, Holds b mem base G → base + b.count ≤ mem.length →
        ∃ r, linePass (TT n0.toNat) n0 (stride * e1) ((loop howmany).flatMap fun p => (loop n1).map fun j => base + p * dist + stride * j) mem = .ok r ∧
          r.length = mem.length ∧ Holds b r base (along b hi (tt (b.size.get hi).toNat) G) ∧ ∀ a, (a < base ∨ base + b.count ≤ a) → rd r a = rd mem a) →
      ∃ r, fftwRank2 TT n0 n1 e1 howmany stride dist base mem = .ok r ∧ r.length = mem.length ∧
        Holds b r base (along b hi (tt (b.size.get hi).toNat) (along b lo (tt (b.size.get lo).toNat) G)) ∧
        ∀ a, (a < base ∨ base + b.count ≤ a) → rd r a = rd mem a := by
    intro lo hi n0 n1 e1 howmany stride dist _ _ p1 p2
    obtain ⟨r, r1, r2, r3, r4⟩ := p1 mem G hG hlen
    obtain ⟨u, u1, u2, u3, u4⟩ := p2 r _ r3 (by rw [r2]; exact hlen)
    refine ⟨u, ?_, u2.trans r2, u3, fun a ha => (u4 a ha).trans (r4 a ha)⟩
    unfold fftwRank2
    rw [r1]
    exact u1
  have a0 := face3_offset h 0
  have a1 := face3_offset h 1
  have a2 := face3_offset h 2
  dsimp only at a0 a1 a2
  have f0 : b.findOrder 0 = 0 := by simp [Box.findOrder, h]
  have f1 : b.findOrder 1 = 1 := by simp [Box.findOrder, h]
  have f2 : b.findOrder 2 = 2 := by simp [Box.findOrder, h]
  have c01 : P 0 → P 1 → ∃ r, fftwRank2 TT (b.size 1) (b.size 0) (b.size 0) (b.size 2) 1 (b.size 0 * b.size 1) base mem = .ok r ∧ r.length = mem.length ∧
        Holds b r base (along b 1 (tt (b.size.get 1).toNat) (along b 0 (tt (b.size.get 0).toNat) G)) ∧
        ∀ a, (a < base ∨ base + b.count ≤ a) → rd r a = rd mem a := by
    intro p0 p1
    refine key 0 1 _ _ _ _ _ _ rfl rfl ?_ ?_
    · intro mem G hG hlen
      exact linePass_uv h hb 0 p0 hG h0 hlen (fun u v => by rw [a0]; ring) t0.symm
    · intro mem G hG hlen
      exact linePass_uv h hb 1 p1 hG h0 hlen (fun u v => by rw [a1]; ring) (by rw [t1]; ring)
  have c12 : P 1 → P 2 → ∃ r, fftwRank2 TT (b.size 2) (b.size 1) (b.size 1) (b.size 0) (b.size 0) 1 base mem = .ok r ∧ r.length = mem.length ∧
        Holds b r base (along b 2 (tt (b.size.get 2).toNat) (along b 1 (tt (b.size.get 1).toNat) G)) ∧
        ∀ a, (a < base ∨ base + b.count ≤ a) → rd r a = rd mem a := by
    intro p0 p1
    refine key 1 2 _ _ _ _ _ _ rfl rfl ?_ ?_
    · intro mem G hG hlen
      exact linePass_vu h hb 1 p0 hG h0 hlen (fun u v => by rw [a1]; ring) t1.symm
    · intro mem G hG hlen
      exact linePass_vu h hb 2 p1 hG h0 hlen (fun u v => by rw [a2]; ring) (by rw [t2])
  have c02 : P 0 → P 2 → ∃ r, fftwRank2 TT (b.size 2) (b.size 0) (b.size 1 * b.size 0) (b.size 1) 1 (b.size 0) base mem = .ok r ∧ r.length = mem.length ∧
        Holds b r base (along b 2 (tt (b.size.get 2).toNat) (along b 0 (tt (b.size.get 0).toNat) G)) ∧
        ∀ a, (a < base ∨ base + b.count ≤ a) → rd r a = rd mem a := by
    intro p0 p1
    refine key 0 2 _ _ _ _ _ _ rfl rfl ?_ ?_
    · intro mem G hG hlen
      exact linePass_vu h hb 0 p0 hG h0 hlen (fun u v => by rw [a0]; ring) t0.symm
    · intro mem G hG hlen
      exact linePass_uv h hb 2 p1 hG h0 hlen (fun u v => by rw [a2]; ring) (by rw [t2]; ring)
  unfold fftwExec2
  have hcases : (d1 = 0 ∧ d2 = 1) ∨ (d1 = 1 ∧ d2 = 0) ∨ (d1 = 1 ∧ d2 = 2) ∨ (d1 = 2 ∧ d2 = 1) ∨ (d1 = 0 ∧ d2 = 2) ∨ (d1 = 2 ∧ d2 = 0) := by
    clear hT; revert d1 d2; decide
  rcases hcases with ⟨rfl, rfl⟩ | ⟨rfl, rfl⟩ | ⟨rfl, rfl⟩ | ⟨rfl, rfl⟩ | ⟨rfl, rfl⟩ | ⟨rfl, rfl⟩
  · rw [f0, f1]; exact c01 (hT 0 (by decide)) (hT 1 (by decide))
  · rw [f0, f1]; exact c01 (hT 0 (by decide)) (hT 1 (by decide))
  · rw [f1, f2]; exact c12 (hT 1 (by decide)) (hT 2 (by decide))
  · rw [f1, f2]; exact c12 (hT 1 (by decide)) (hT 2 (by decide))
  · rw [f0, f2]; exact c02 (hT 0 (by decide)) (hT 2 (by decide))
  · rw [f0, f2]; exact c02 (hT 0 (by decide)) (hT 2 (by decide))

theorem fftwExec3_ok (h : b.order = ⟨0, 1, 2⟩) (hb : b.empty = false)
    (hT : ∀ (d : Fin 3) s v, v.length = (b.size.get d).toNat →
      TT (b.size.get d).toNat s v = .ok ((List.range (b.size.get d).toNat).map (tt (b.size.get d).toNat v)))
    (hG : Holds b mem base G) (h0 : 0 ≤ base) (hlen : base + b.count ≤ mem.length) :
    ∃ r, fftwExec3 TT b base mem = .ok r ∧ r.length = mem.length ∧
      Holds b r base (along b 2 (tt (b.size.get 2).toNat) (along b 1 (tt (b.size.get 1).toNat) (along b 0 (tt (b.size.get 0).toNat) G))) ∧
      ∀ a, (a < base ∨ base + b.count ≤ a) → rd r a = rd mem a := by
  obtain ⟨t0, t1, t2⟩ := std_stride h
  have a0 := face3_offset h 0
  have a1 := face3_offset h 1
  have a2 := face3_offset h 2
  dsimp only at a0 a1 a2
  obtain ⟨r, r1, r2, r3, r4⟩ := linePass_uv (addr := fun i j => base + (i * b.size 1 + j) * b.size 0) h hb 0 (hT 0) hG h0 hlen
    (fun u v => by rw [a0]) t0.symm
  obtain ⟨u, u1, u2, u3, u4⟩ := linePass_uv (addr := fun i k => base + i * b.size 1 * b.size 0 + k) h hb 1 (hT 1) r3 h0
    (by rw [r2]; exact hlen) (fun u v => by rw [a1]; ring) t1.symm
  obtain ⟨w, w1, w2, w3, w4⟩ := linePass_uv (addr := fun j k => base + j * b.size 0 + k) (stride := b.size 1 * b.size 0) h hb 2 (hT 2) u3 h0
    (by rw [u2, r2]; exact hlen) (fun u v => by rw [a2]; ring) (by rw [t2]; ring)
  refine ⟨w, ?_, by rw [w2, u2, r2], w3, fun a ha => ((w4 a ha).trans (u4 a ha)).trans (r4 a ha)⟩
  unfold fftwExec3 fftwRank3
  erw [r1]
  simp only [bind, Except.bind]
  erw [u1]
  exact w1

end Verif
