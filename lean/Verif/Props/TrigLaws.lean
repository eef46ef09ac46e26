import Verif.TrigLaws
import Verif.Props.Laws

/-!
# C93: laws between sine and cosine transforms

Equations between the entries of the arrays of several calls: of different objects, backends, numbers of ranks, boxes, layouts and batches.
-/

namespace Verif
open Stock

section
variable {z : Trig} {fwd : Bool} {s : Scaling} {w w' : Box} {src dst src' dst' src'' dst'' : List Box} {nb nb' nb'' j j' j'' : Nat}
  {input output input' output' input'' output'' : List (Data ℝ Unit)} {σ : Equiv.Perm (Fin 3)}

/-- C93: each index has exactly one entry in the input and in the output. -/
theorem C93_entries (P : PerformedTrig z fwd s w src dst nb input output) (hj : j < nb) :
    (∀ p, (∃ x, RealAt src input j p x) ↔ p ∈ w) ∧ (∀ p, (∃ x, RealAt dst output j p x) ↔ p ∈ w) ∧
      (∀ p x y, RealAt src input j p x → RealAt src input j p y → x = y) ∧ ∀ p x y, RealAt dst output j p x → RealAt dst output j p y → x = y := by
  obtain ⟨-, G, hG⟩ := P.maps
  obtain ⟨h1, h2⟩ := hG j hj
  refine ⟨fun p => ⟨fun ⟨x, hx⟩ => ((h1 p x).1 hx).1, fun hp => ⟨_, (h1 p _).2 ⟨hp, rfl⟩⟩⟩, fun p => ⟨fun ⟨x, hx⟩ => ((h2 p x).1 hx).1, fun hp => ⟨_, (h2 p _).2 ⟨hp, rfl⟩⟩⟩, ?_, ?_⟩
  · intro p x y hx hy
    rw [((h1 p x).1 hx).2, ((h1 p y).1 hy).2]
  · intro p x y hx hy
    rw [((h2 p x).1 hx).2, ((h2 p y).1 hy).2]

theorem shape_gain (h : SameExtents w w' σ) : z.gain3 w' = z.gain3 w := by
  have e := Equiv.prod_comp σ fun d => z.gain (w.extent d)
  rw [Fin.prod_univ_three, Fin.prod_univ_three] at e
  unfold Trig.gain3
  rw [h 0, h 1, h 2, e]

/-- C93: backends, ranks, boxes, layouts, batches and the order of the axes do not matter. -/
theorem C93_layout (P : PerformedTrig z fwd s w src dst nb input output) (P' : PerformedTrig z fwd s w' src' dst' nb' input' output') (hj : j < nb) (hj' : j' < nb')
    (hσ : SameExtents w w' σ) (hin : ∀ p x x', RealAt src input j p x → RealAt src' input' j' (moved w w' σ p) x' → x' = x) :
    ∀ k y y', RealAt dst output j k y → RealAt dst' output' j' (moved w w' σ k) y' → y' = y := by
  obtain ⟨-, G, hG⟩ := P.maps
  obtain ⟨-, G', hG'⟩ := P'.maps
  obtain ⟨h1, h2⟩ := hG j hj
  obtain ⟨h1', h2'⟩ := hG' j' hj'
  intro k y y' hy hy'
  obtain ⟨-, rfl⟩ := (h2 k y).1 hy
  obtain ⟨-, rfl⟩ := (h2' _ y').1 hy'
  rw [shape_gain hσ, trig3_moved hσ z fwd fun q hq => hin q _ _ ((h1 q _).2 ⟨hq, rfl⟩) ((h1' _ _).2 ⟨moved_mem hσ hq, rfl⟩)]

/-- C93: the transform of a combination is the combination of the transforms. -/
theorem C93_linear (P : PerformedTrig z fwd s w src dst nb input output) (P' : PerformedTrig z fwd s w src' dst' nb' input' output')
    (P'' : PerformedTrig z fwd s w src'' dst'' nb'' input'' output'') (hj : j < nb) (hj' : j' < nb') (hj'' : j'' < nb'') (a b : ℝ)
    (hin : ∀ p x x' x'', RealAt src input j p x → RealAt src' input' j' p x' → RealAt src'' input'' j'' p x'' → x'' = a * x + b * x') :
    ∀ k y y' y'', RealAt dst output j k y → RealAt dst' output' j' k y' → RealAt dst'' output'' j'' k y'' → y'' = a * y + b * y' := by
  obtain ⟨-, G, hG⟩ := P.maps
  obtain ⟨-, G', hG'⟩ := P'.maps
  obtain ⟨-, G'', hG''⟩ := P''.maps
  obtain ⟨h1, h2⟩ := hG j hj
  obtain ⟨h1', h2'⟩ := hG' j' hj'
  obtain ⟨h1'', h2''⟩ := hG'' j'' hj''
  intro k y y' y'' hy hy' hy''
  obtain ⟨-, rfl⟩ := (h2 k y).1 hy
  obtain ⟨-, rfl⟩ := (h2' k y').1 hy'
  obtain ⟨-, rfl⟩ := (h2'' k y'').1 hy''
  rw [trig3_same (G' := fun q => a * G j q + b * G' j' q)
    (fun q hq => hin q _ _ _ ((h1 q _).2 ⟨hq, rfl⟩) ((h1' q _).2 ⟨hq, rfl⟩) ((h1'' q _).2 ⟨hq, rfl⟩)), trig3_linear]
  ring

/-- C93: forward, the input from the other end gives the output with alternating signs. -/
theorem C93_turned (P : PerformedTrig z true s w src dst nb input output) (P' : PerformedTrig z true s w src' dst' nb' input' output') (hj : j < nb) (hj' : j' < nb')
    (hin : ∀ p x x', RealAt src input j p x → RealAt src' input' j' (fromEnd w p) x' → x' = x) :
    ∀ k y y', RealAt dst output j k y → RealAt dst' output' j' k y' → y' = alternating w k * y := by
  obtain ⟨hn, G, hG⟩ := P.maps
  obtain ⟨-, G', hG'⟩ := P'.maps
  obtain ⟨h1, h2⟩ := hG j hj
  obtain ⟨h1', h2'⟩ := hG' j' hj'
  intro k y y' hy hy'
  obtain ⟨-, rfl⟩ := (h2 k y).1 hy
  obtain ⟨-, rfl⟩ := (h2' k y').1 hy'
  rw [trig3_fromEnd (fun d j k hj => weight_back z (hn d) hj k) fun q hq => hin q _ _ ((h1 q _).2 ⟨hq, rfl⟩) ((h1' _ _).2 ⟨fromEnd_mem hq, rfl⟩)]
  ring

/-- C93: backward, the input with alternating signs gives the output from the other end. -/
theorem C93_alternating (P : PerformedTrig z false s w src dst nb input output) (P' : PerformedTrig z false s w src' dst' nb' input' output') (hj : j < nb) (hj' : j' < nb')
    (hin : ∀ p x x', RealAt src input j p x → RealAt src' input' j' p x' → x' = alternating w p * x) :
    ∀ k y y', RealAt dst output j (fromEnd w k) y → RealAt dst' output' j' k y' → y' = y := by
  obtain ⟨hn, G, hG⟩ := P.maps
  obtain ⟨-, G', hG'⟩ := P'.maps
  obtain ⟨h1, h2⟩ := hG j hj
  obtain ⟨h1', h2'⟩ := hG' j' hj'
  intro k y y' hy hy'
  obtain ⟨-, rfl⟩ := (h2 _ y).1 hy
  obtain ⟨hk, rfl⟩ := (h2' k y').1 hy'
  rw [trig3_alternating (fun d j k hj hk => weight_front z (hn d) hj hk) (fun q hq => hin q _ _ ((h1 q _).2 ⟨hq, rfl⟩) ((h1' q _).2 ⟨hq, rfl⟩)) hk]

/-- C93: the forward sine transform, read from the other end, is the cosine transform of the input with alternating signs. -/
theorem C93_sine_cosine (P : PerformedTrig .sin true s w src dst nb input output) (P' : PerformedTrig .cos true s w src' dst' nb' input' output') (hj : j < nb) (hj' : j' < nb')
    (hin : ∀ p x x', RealAt src input j p x → RealAt src' input' j' p x' → x' = alternating w p * x) :
    ∀ k y y', RealAt dst output j (fromEnd w k) y → RealAt dst' output' j' k y' → y' = y := by
  obtain ⟨-, G, hG⟩ := P.maps
  obtain ⟨-, G', hG'⟩ := P'.maps
  obtain ⟨h1, h2⟩ := hG j hj
  obtain ⟨h1', h2'⟩ := hG' j' hj'
  intro k y y' hy hy'
  obtain ⟨-, rfl⟩ := (h2 _ y).1 hy
  obtain ⟨hk, rfl⟩ := (h2' k y').1 hy'
  rw [trig3_alternating (fun d j k hj hk => weight_sin_cos hj hk) (fun q hq => hin q _ _ ((h1 q _).2 ⟨hq, rfl⟩) ((h1' q _).2 ⟨hq, rfl⟩)) hk]
  rfl

/-- C93: the backward sine transform of the input from the other end is the backward cosine transform with alternating signs. -/
theorem C93_sine_cosine_back (P : PerformedTrig .cos false s w src dst nb input output) (P' : PerformedTrig .sin false s w src' dst' nb' input' output') (hj : j < nb)
    (hj' : j' < nb') (hin : ∀ p x x', RealAt src input j p x → RealAt src' input' j' (fromEnd w p) x' → x' = x) :
    ∀ k y y', RealAt dst output j k y → RealAt dst' output' j' k y' → y' = alternating w k * y := by
  obtain ⟨-, G, hG⟩ := P.maps
  obtain ⟨-, G', hG'⟩ := P'.maps
  obtain ⟨h1, h2⟩ := hG j hj
  obtain ⟨h1', h2'⟩ := hG' j' hj'
  intro k y y' hy hy'
  obtain ⟨-, rfl⟩ := (h2 k y).1 hy
  obtain ⟨-, rfl⟩ := (h2' k y').1 hy'
  rw [trig3_fromEnd (fun d j k hj => weight_sin_cos_back hj k) fun q hq => hin q _ _ ((h1 q _).2 ⟨hq, rfl⟩) ((h1' _ _).2 ⟨fromEnd_mem hq, rfl⟩),
    show Trig.sin.gain3 w = Trig.cos.gain3 w from rfl]
  ring

/-- C93: a product of functions of one index each becomes the product of the one dimensional transforms. -/
theorem C93_separable (P : PerformedTrig z fwd s w src dst nb input output) (hj : j < nb) (f : Fin 3 → Nat → ℝ)
    (hin : ∀ p x, RealAt src input j p x → x = ∏ d, f d (w.rel p d)) :
    ∀ k y, RealAt dst output j k y → y = s.factor (z.gain (w.extent 0) * z.gain (w.extent 1) * z.gain (w.extent 2) : Nat) * ∏ d, trigOf z fwd (w.extent d) (f d) (w.rel k d) := by
  obtain ⟨hn, G, hG⟩ := P.maps
  obtain ⟨h1, h2⟩ := hG j hj
  intro k y hy
  obtain ⟨-, rfl⟩ := (h2 k y).1 hy
  rw [trig3_separable z fwd hn f fun q hq => hin q _ ((h1 q _).2 ⟨hq, rfl⟩)]
  rfl

end

/-! ## Examples -/

/-- A call on four ranks with 4 x 6 x 8 indexes, with the stock backend. -/
theorem trigPerformed (z : Trig) (opts : Opts) (s : Scaling) (fwd : Bool) (g : Nat → A3 Int → ℝ) :
    ∃ input output, PerformedTrig z fwd s lawWorld (srcBoxes fwd exIn exOut) (dstBoxes fwd exIn exOut) 2 input output ∧
      ∀ j, j < 2 → ∀ p x, RealAt (srcBoxes fwd exIn exOut) input j p x ↔ p ∈ lawWorld ∧ x = g j p := by
  obtain ⟨wi, wo, ob, S⟩ := exObjectR2R z opts
  obtain rfl : lawWorld = wi := Except.ok.inj ((by decide : findWorld exIn = .ok lawWorld).symm.trans S.geo.worldIn)
  obtain ⟨W, hW⟩ := world_exists (α := ℝ) (β := Unit) ob.plan fwd
  obtain ⟨ws, hws⟩ := work_exists ob
  obtain ⟨m0s, h⟩ := arrays_exist (srcBoxes fwd exIn exOut) (dstBoxes fwd exIn exOut) false (ob.sizeWorkspace trigWork) 2 (.inl g : Field ℝ Unit) (src_order S.geo fwd)
  have hs : SourceHolds (srcBoxes fwd exIn exOut) fun _ => false := by cases fwd <;> exact exSource _ (by simp [srcBoxes])
  obtain ⟨ms, h1, -⟩ := C45_calls (junk := fun _ _ => ⟨fun _ => 0, fun _ _ => 0⟩) (inp := fun _ _ _ => 0) (s := s) S (by decide : 0 < 4) hW (by decide : 0 < 2) hws h hs
  exact ⟨_, _, .stock S (by decide : 0 < 4) hW (by decide : 0 < 2) hws h.has hs h1, fun j hj => reals_in (src_tiles S.geo fwd) h hj⟩

/-- C93 for a GPU: the same boxes. -/
theorem trigPerformedDevice (z : Trig) (opts : Opts) (s : Scaling) (fwd : Bool) (g : Nat → A3 Int → ℝ) :
    ∃ input output, PerformedTrig z fwd s lawWorld (srcBoxes fwd exIn exOut) (dstBoxes fwd exIn exOut) 3 input output ∧
      ∀ j, j < 3 → ∀ p x, RealAt (srcBoxes fwd exIn exOut) input j p x ↔ p ∈ lawWorld ∧ x = g j p := by
  obtain ⟨wi, wo, ob, S⟩ := exObjectR2R z opts
  obtain rfl : lawWorld = wi := Except.ok.inj ((by decide : findWorld exIn = .ok lawWorld).symm.trans S.geo.worldIn)
  obtain ⟨W, hW⟩ := world_exists (α := ℝ) (β := Unit) ob.plan fwd
  obtain ⟨D, -, -, hD⟩ := device_exists z ob true
  obtain ⟨m0s, h⟩ := arrays_exist (srcBoxes fwd exIn exOut) (dstBoxes fwd exIn exOut) false (ob.sizeWorkspace (deviceWork D.aligned fun _ => 0)) 3 (.inl g : Field ℝ Unit)
    (src_order S.geo fwd)
  have hs : SourceHolds (srcBoxes fwd exIn exOut) fun _ => false := by cases fwd <;> exact exSource _ (by simp [srcBoxes])
  obtain ⟨ms, h1, -⟩ := C70_calls (s := s) S.object hD hW (by decide : 0 < 3) h hs
  exact ⟨_, _, .device S.object hD hW (by decide : 0 < 3) h.has hs h1, fun j hj => reals_in (src_tiles S.geo fwd) h hj⟩

/-- C93: the sine transform on a GPU against the cosine transform of the stock backend, for any values. -/
example (opts opts' : Opts) (s : Scaling) (g : A3 Int → ℝ) : ∃ input output input' output',
    PerformedTrig .sin true s lawWorld exIn exOut 3 input output ∧ PerformedTrig .cos true s lawWorld exIn exOut 2 input' output' ∧
      (∀ p ∈ lawWorld, RealAt exIn input 2 p (g p)) ∧ ∀ k y y', RealAt exOut output 2 (fromEnd lawWorld k) y → RealAt exOut output' 1 k y' → y' = y := by
  obtain ⟨i, o, P, h⟩ := trigPerformedDevice .sin opts s true fun _ => g
  obtain ⟨i', o', P', h'⟩ := trigPerformed .cos opts' s true fun _ p => alternating lawWorld p * g p
  refine ⟨i, o, i', o', P, P', fun p hp => (h 2 (by decide) p _).2 ⟨hp, rfl⟩, C93_sine_cosine P P' (by decide) (by decide) fun p x x' hx hx' => ?_⟩
  obtain ⟨-, rfl⟩ := (h 2 (by decide) p x).1 hx
  obtain ⟨-, rfl⟩ := (h' 1 (by decide) p x').1 hx'
  rfl

/-- C93: the same backward. -/
example (opts opts' : Opts) (s : Scaling) (g : A3 Int → ℝ) : ∃ input output input' output',
    PerformedTrig .cos false s lawWorld exOut exIn 3 input output ∧ PerformedTrig .sin false s lawWorld exOut exIn 2 input' output' ∧
      (∀ p ∈ lawWorld, RealAt exOut input 2 p (g p)) ∧ ∀ k y y', RealAt exIn output 2 k y → RealAt exIn output' 1 k y' → y' = alternating lawWorld k * y := by
  obtain ⟨i, o, P, h⟩ := trigPerformedDevice .cos opts s false fun _ => g
  obtain ⟨i', o', P', h'⟩ := trigPerformed .sin opts' s false fun _ p => g (fromEnd lawWorld p)
  refine ⟨i, o, i', o', P, P', fun p hp => (h 2 (by decide) p _).2 ⟨hp, rfl⟩, C93_sine_cosine_back P P' (by decide) (by decide) fun p x x' hx hx' => ?_⟩
  obtain ⟨-, rfl⟩ := (h 2 (by decide) p x).1 hx
  obtain ⟨-, rfl⟩ := (h' 1 (by decide) _ x').1 hx'
  rw [fromEnd_fromEnd]

/-- C93: turned input, for all three transforms. -/
example (z : Trig) (opts opts' : Opts) (s : Scaling) (g : A3 Int → ℝ) : ∃ input output input' output',
    PerformedTrig z true s lawWorld exIn exOut 3 input output ∧ PerformedTrig z true s lawWorld exIn exOut 2 input' output' ∧
      (∀ p ∈ lawWorld, RealAt exIn input 0 p (g p)) ∧ ∀ k y y', RealAt exOut output 0 k y → RealAt exOut output' 1 k y' → y' = alternating lawWorld k * y := by
  obtain ⟨i, o, P, h⟩ := trigPerformedDevice z opts s true fun _ => g
  obtain ⟨i', o', P', h'⟩ := trigPerformed z opts' s true fun _ p => g (fromEnd lawWorld p)
  refine ⟨i, o, i', o', P, P', fun p hp => (h 0 (by decide) p _).2 ⟨hp, rfl⟩, C93_turned P P' (by decide) (by decide) fun p x x' hx hx' => ?_⟩
  obtain ⟨-, rfl⟩ := (h 0 (by decide) p x).1 hx
  obtain ⟨-, rfl⟩ := (h' 1 (by decide) _ x').1 hx'
  rw [fromEnd_fromEnd]

/-- C93: alternating signs before a backward transform. -/
example (z : Trig) (opts opts' : Opts) (s : Scaling) (g : A3 Int → ℝ) : ∃ input output input' output',
    PerformedTrig z false s lawWorld exOut exIn 3 input output ∧ PerformedTrig z false s lawWorld exOut exIn 2 input' output' ∧
      (∀ p ∈ lawWorld, RealAt exOut input 0 p (g p)) ∧ ∀ k y y', RealAt exIn output 0 (fromEnd lawWorld k) y → RealAt exIn output' 1 k y' → y' = y := by
  obtain ⟨i, o, P, h⟩ := trigPerformedDevice z opts s false fun _ => g
  obtain ⟨i', o', P', h'⟩ := trigPerformed z opts' s false fun _ p => alternating lawWorld p * g p
  refine ⟨i, o, i', o', P, P', fun p hp => (h 0 (by decide) p _).2 ⟨hp, rfl⟩, C93_alternating P P' (by decide) (by decide) fun p x x' hx hx' => ?_⟩
  obtain ⟨-, rfl⟩ := (h 0 (by decide) p x).1 hx
  obtain ⟨-, rfl⟩ := (h' 1 (by decide) p x').1 hx'
  rfl

/-- C93: a constant input has a cosine transform with one entry that is not zero, at the first index. -/
example (opts : Opts) : ∃ input output, PerformedTrig .cos true .none lawWorld exIn exOut 2 input output ∧
    (∀ p ∈ lawWorld, RealAt exIn input 1 p 1) ∧ ∀ y, RealAt exOut output 1 ⟨0, 0, 0⟩ y → y = 1536 := by
  obtain ⟨i, o, P, h⟩ := trigPerformed .cos opts .none true fun _ _ => 1
  refine ⟨i, o, P, fun p hp => (h 1 (by decide) p _).2 ⟨hp, rfl⟩, fun y hy => ?_⟩
  rw [C93_separable P (by decide) (fun _ _ => 1) (fun p x hx => by rw [((h 1 (by decide) p x).1 hx).2]; simp) _ _ hy, Fin.prod_univ_three]
  have e : lawWorld.extent 0 = 4 ∧ lawWorld.extent 1 = 6 ∧ lawWorld.extent 2 = 8 := by decide
  have r : ∀ d, lawWorld.rel ⟨0, 0, 0⟩ d = 0 := by decide
  simp only [e.1, e.2.1, e.2.2, r, trigOf, redft10, Scaling.factor]
  norm_num

/-- C93: layouts. A batch of three on a GPU with four ranks, and a batch of two with MKL on two ranks where the axes are in another order. -/
example (z : Trig) (opts opts' : Opts) (s : Scaling) (g : A3 Int → ℝ) : ∃ input output input' output',
    PerformedTrig z true s lawWorld exIn exOut 3 input output ∧ PerformedTrig z true s lawOther lawIn lawOut 2 input' output' ∧
      SameExtents lawWorld lawOther lawAxes ∧ ∀ p x x', RealAt exIn input 2 p x → RealAt lawIn input' 0 (moved lawWorld lawOther lawAxes p) x' → x' = x := by
  obtain ⟨i, o, P, h⟩ := trigPerformedDevice z opts s true fun _ => g
  obtain ⟨wo, geo, hlong⟩ := lawGeometry
  have hdef : ∀ (z : Trig) d, z.least ≤ lawOther.extent d := by intro z; cases z <;> decide
  have hlong' : ∀ d, (lawIn.length : Int) ≤ lawOther.size.get d := by decide
  obtain ⟨ob, hob⟩ := C48_constructor (z := z) geo (by decide) (fun d => ⟨hlong' d, hlong d⟩) (hdef z) opts'
  have S : TrigObject z lawIn lawOut lawOther wo opts' ob := ⟨geo, hob, hdef z⟩
  obtain ⟨W, hW⟩ := world_exists (α := ℝ) (β := Unit) ob.plan true
  obtain ⟨ws, hws⟩ := work_exists ob
  obtain ⟨m0s, ha⟩ := arrays_exist lawIn lawOut false (ob.sizeWorkspace trigWork) 2 (.inl fun _ p => g (moved lawOther lawWorld lawAxes.symm p) : Field ℝ Unit)
    (src_order S.geo true)
  have hs : SourceHolds lawIn fun _ => false := by
    have key : ∀ r, r < lawIn.length → (boxAt lawIn r).low ∈ boxAt lawIn r := by decide
    exact fun r hr => .inr ⟨_, key r hr⟩
  obtain ⟨ms, h1, -⟩ := C70_mkl_calls (s := s) (fwd := true) S exact_pairs hW (by decide : 0 < 2) hws ha hs
  refine ⟨i, o, _, _, P, .mkl S exact_pairs hW (by decide : 0 < 2) hws ha.has hs h1, by unfold SameExtents; decide, fun p x x' hx hx' => ?_⟩
  obtain ⟨-, rfl⟩ := (h 2 (by decide) p x).1 hx
  obtain ⟨-, rfl⟩ := (reals_in S.geo.tilesIn ha (by decide : 0 < 2) _ x').1 hx'
  rw [moved_moved]

end Verif
