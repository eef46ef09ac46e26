import Verif.DeviceTrig
import Verif.Props.Library
import Verif.Props.Gpu

/-!
# Properties of the sine and cosine transforms with MKL and on devices (C70)
-/

namespace Verif
open Stock

/-- `workspace_size` of the executors on a device (`/repo/include/heffte_r2r_executor.h:259-262`), in real numbers; `work b` is the workspace
of the library for the box `b`, in complex numbers. -/
def deviceWork (aligned : Bool) (work : Box → Int) : Executor → Int
  | .trig z b _ => if b.empty then 0 else max 0 (TrigDims.workspace (.ofBox z b aligned 0) (work b))
  | _ => 0

/-- A device that works: the processors of CUDA, ROCm or oneAPI, in any order of the threads, a library that is right, workspaces that are
large enough. -/
structure DeviceOk (D : Device) (z : Trig) (work : Box → Int) (ob : Object) : Prop where
  processors : D.all = trigAll ∨ D.all = oneTrigAll ∧ z ≠ .cos1
  orders : ∀ tag s c l, OrderOf (D.sched tag s c l) l
  nonneg : ∀ b, 0 ≤ work b
  library : ∀ tag b, b.empty = false → z.least ≤ (b.osize 0).toNat →
    LibGood (D.lib tag b) (z.gain (b.osize 0).toNat) (numLines b).toNat (work b) D.aligned (D.addr tag)
  space : ∀ (tag : Tag) e x b d, ob.fft.execs[tag.rank]? = some e → e.get x = some (.trig z b d) →
    TrigDims.workspace (.ofBox z b D.aligned (D.addr tag)) (work b) ≤ (D.ws tag).length

theorem deviceWork_nonneg (aligned : Bool) (work : Box → Int) (e : Executor) : 0 ≤ deviceWork aligned work e := by
  unfold deviceWork
  split
  · split
    · exact le_rfl
    · exact le_max_left _ _
  · exact le_rfl

section
variable {z : Trig} {bin bout : List Box} {wi wo : Box} {opts : Opts} {ob : Object} {W W' : World ℝ Unit} {fwd : Bool} {nb : Nat}
  {inplace inplace' : Nat → Bool} {s s' : Scaling} {m0s : List (Mem ℝ Unit)} {D D' : Device} {work : Box → Int} {K : Kernel ℂ ℝ} {ws ws' : Tag → List ℝ}

theorem DeviceOk.all (h : DeviceOk D z work ob) : Processors D.all z := by
  rcases h.processors with e | ⟨e, hz⟩
  · rw [e]; exact processors_cuda z
  · rw [e]; exact processors_one hz

theorem device_does (S : TrigObject z bin bout wi wo opts ob) (hD : DeviceOk D z work ob) {r : Nat} (hr : r < bin.length) (x : Fin 3)
    (hb : (ob.plan.box r x).empty = false) :
    Does (deviceKernel D) r wi (trig z) (.trig z (ob.plan.box r x) (ob.plan.dirs x)) (ob.plan.box r x) [ob.plan.dirs x] := by
  obtain ⟨hplan, -⟩ := makeFft3d_ok S.geo S.made
  obtain ⟨q1, q2, q3, q4⟩ := trig_box S.geo (setOptions_reorder z opts) hplan hr x hb
  have hsz : ((ob.plan.box r x).size (ob.plan.dirs x)).toNat = wi.extent (ob.plan.dirs x) := by rw [← extent_eq, q4]
  have hn : z.least ≤ ((ob.plan.box r x).size (ob.plan.dirs x)).toNat := by rw [hsz]; exact S.defined _
  have hz : (ob.plan.box r x).osize 0 = (ob.plan.box r x).size (ob.plan.dirs x) := by rw [← q2]; rfl
  refine does_device hD.all hD.orders q1 hb q2 q3 hn (hD.nonneg (ob.plan.box r x)) ?_ ?_
  · intro tag _
    have := hD.library tag (ob.plan.box r x) hb (by rw [hz]; exact hn)
    rw [hz] at this
    exact this
  · intro tag htag
    obtain ⟨e, need', m, he, hget, -⟩ := trig_work S hr x hb
    exact hD.space tag e x _ _ (by rw [htag]; exact he) hget

/-- C70: the sine and cosine transforms on a device compute the transform of their kind times the factor of the scaling. -/
theorem C70_calls (S : TrigObject z bin bout wi wo opts ob) (hD : DeviceOk D z work ob) (hW : WorldOk W ob.plan fwd) (hnb : 0 < nb) {g : Nat → A3 Int → ℝ}
    (ha : CallArrays (srcBoxes fwd bin bout) (dstBoxes fwd bin bout) false false (ob.sizeWorkspace (deviceWork D.aligned work)) nb inplace m0s (.inl g))
    (hs : SourceHolds (srcBoxes fwd bin bout) inplace) :
    ∃ ms, performR2R ob (deviceKernel D) W fwd nb inplace s m0s = .ok ms ∧
      Outcome (dstBoxes fwd bin bout) nb m0s ms (.inl fun j p => s.factor (z.gain3 wi) * trig3 z fwd wi (g j) p) :=
  trig_call S (deviceWork_nonneg _ _) (fun _ hr x hb => device_does S hD hr x hb) hW hnb ha hs

/-- C70: backward after forward on a device, with the orders and workspaces of the two calls unrelated. -/
theorem C70_round_trip (S : TrigObject z bin bout wi wo opts ob) (hD : DeviceOk D z work ob) (hD' : DeviceOk D' z work ob) (hal : D'.aligned = D.aligned)
    (hW : WorldOk W ob.plan true) (hW' : WorldOk W' ob.plan false) (hnb : 0 < nb) {g : Nat → A3 Int → ℝ}
    (ha : CallArrays bin bout false false (ob.sizeWorkspace (deviceWork D.aligned work)) nb inplace m0s (.inl g))
    (hs : SourceHolds bin inplace) (hs' : SourceHolds bout inplace') :
    ∃ ms, performR2R ob (deviceKernel D) W true nb inplace s m0s = .ok ms ∧
      ∀ m1s, HasArrays bout bin false false (ob.sizeWorkspace (deviceWork D.aligned work)) nb inplace' m1s → Continues inplace' ms m1s →
        ∃ ms', performR2R ob (deviceKernel D') W' false nb inplace' s' m1s = .ok ms' ∧
          Outcome bin nb m1s ms' (.inl fun j p => s'.factor (z.gain3 wi) * s.factor (z.gain3 wi) *
            (z.gain (wi.extent 0) * z.gain (wi.extent 1) * z.gain (wi.extent 2) : ℝ) * g j p) ∧
          (Inverse s s' → Outcome bin nb m1s ms' (.inl g)) := by
  obtain ⟨ms, h1, h2⟩ := C70_calls (s := s) (fwd := true) S hD hW hnb ha hs
  refine ⟨ms, h1, trig_round S ha h2 fun m1s g' hca => ?_⟩
  rw [← hal] at hca
  exact C70_calls (s := s') (fwd := false) S hD' hW' hnb hca hs'

/-- An arithmetic that stores complex numbers as pairs. -/
structure PairLibrary (K : Kernel ℂ ℝ) : Prop where
  exact : ExactLibrary K
  parts : ∀ c, K.parts c = (c.re, c.im)
  join : ∀ a b, K.join a b = ⟨a, b⟩

theorem gain_pos {n : Nat} (h : z.least ≤ n) : 1 ≤ z.gain n := by
  cases z <;> simp only [Trig.gain, Trig.least] at h ⊢ <;> omega

/-- C70: the sine and cosine transforms of the MKL backend, which has the processors of the stock backend (heffte_backend_mkl.h:466-483) and
no workspace of its own, for all lengths. -/
theorem C70_mkl_calls (S : TrigObject z bin bout wi wo opts ob) (hK : PairLibrary K) (hW : WorldOk W ob.plan fwd) (hnb : 0 < nb) (hws : EnoughWork ob ws)
    {g : Nat → A3 Int → ℝ}
    (ha : CallArrays (srcBoxes fwd bin bout) (dstBoxes fwd bin bout) false false (ob.sizeWorkspace trigWork) nb inplace m0s (.inl g))
    (hs : SourceHolds (srcBoxes fwd bin bout) inplace) :
    ∃ ms, performR2R ob (trigKernel K ws) W fwd nb inplace s m0s = .ok ms ∧
      Outcome (dstBoxes fwd bin bout) nb m0s ms (.inl fun j p => s.factor (z.gain3 wi) * trig3 z fwd wi (g j) p) :=
  trig_call S trigWork_nonneg (fun _ hr x hb => trig_does S hK.exact.ok hK.parts hK.join (fun d => gain_pos (S.defined d)) hws hr x hb) hW hnb ha hs

/-- C70: backward after forward with MKL. -/
theorem C70_mkl_round_trip (S : TrigObject z bin bout wi wo opts ob) (hK : PairLibrary K) (hW : WorldOk W ob.plan true) (hW' : WorldOk W' ob.plan false)
    (hnb : 0 < nb) (hws : EnoughWork ob ws) (hws' : EnoughWork ob ws') {g : Nat → A3 Int → ℝ}
    (ha : CallArrays bin bout false false (ob.sizeWorkspace trigWork) nb inplace m0s (.inl g))
    (hs : SourceHolds bin inplace) (hs' : SourceHolds bout inplace') :
    ∃ ms, performR2R ob (trigKernel K ws) W true nb inplace s m0s = .ok ms ∧
      ∀ m1s, HasArrays bout bin false false (ob.sizeWorkspace trigWork) nb inplace' m1s → Continues inplace' ms m1s →
        ∃ ms', performR2R ob (trigKernel K ws') W' false nb inplace' s' m1s = .ok ms' ∧
          Outcome bin nb m1s ms' (.inl fun j p => s'.factor (z.gain3 wi) * s.factor (z.gain3 wi) *
            (z.gain (wi.extent 0) * z.gain (wi.extent 1) * z.gain (wi.extent 2) : ℝ) * g j p) ∧
          (Inverse s s' → Outcome bin nb m1s ms' (.inl g)) := by
  obtain ⟨ms, h1, h2⟩ := C70_mkl_calls (s := s) (fwd := true) S hK hW hnb hws ha hs
  exact ⟨ms, h1, trig_round S ha h2 fun m1s g' hca => C70_mkl_calls (s := s') (fwd := false) S hK hW' hnb hws' hca hs'⟩

theorem trig3_congr {v : Box} {G G' : A3 Int → ℝ} (h : ∀ p ∈ v, G p = G' p) (fwd : Bool) : trig3 z fwd v G = trig3 z fwd v G' := by
  funext p
  unfold trig3
  exact Finset.sum_congr rfl fun q hq => by rw [h q (Box.mem_points.1 hq)]

/-- Two calls that compute the transform of their kind return the same numbers for the same numbers, whatever computed them. -/
theorem trig_agree {opts' : Opts} {ob' : Object} (S : TrigObject z bin bout wi wo opts ob) (S' : TrigObject z bin bout wi wo opts' ob')
    {K K' : Kernel ℝ Unit} {need need' : Nat → Int} {nb' : Nat} {m0s' : List (Mem ℝ Unit)}
    (hc : ∀ g, CallArrays (srcBoxes fwd bin bout) (dstBoxes fwd bin bout) false false need nb inplace m0s (.inl g) →
      ∃ ms, performR2R ob K W fwd nb inplace s m0s = .ok ms ∧
        Outcome (dstBoxes fwd bin bout) nb m0s ms (.inl fun j p => s.factor (z.gain3 wi) * trig3 z fwd wi (g j) p))
    (hc' : ∀ g, CallArrays (srcBoxes fwd bin bout) (dstBoxes fwd bin bout) false false need' nb' inplace' m0s' (.inl g) →
      ∃ ms, performR2R ob' K' W' fwd nb' inplace' s m0s' = .ok ms ∧
        Outcome (dstBoxes fwd bin bout) nb' m0s' ms (.inl fun j p => s.factor (z.gain3 wi) * trig3 z fwd wi (g j) p))
    (ha : HasArrays (srcBoxes fwd bin bout) (dstBoxes fwd bin bout) false false need nb inplace m0s)
    (ha' : HasArrays (srcBoxes fwd bin bout) (dstBoxes fwd bin bout) false false need' nb' inplace' m0s') :
    ∃ ms ms', performR2R ob K W fwd nb inplace s m0s = .ok ms ∧ performR2R ob' K' W' fwd nb' inplace' s m0s' = .ok ms' ∧
      ∀ j j', j < nb → j' < nb' → SameInput (srcBoxes fwd bin bout) inplace m0s j inplace' m0s' j' → SameOutput (dstBoxes fwd bin bout) ms j ms' j' := by
  have ho := src_order S.geo fwd
  have ht := src_tiles S.geo fwd
  obtain ⟨G, hG, h⟩ := ha.values ht ho (fun _ _ _ => rfl)
  obtain ⟨G', hG', h'⟩ := ha'.values ht ho (fun _ _ _ => rfl)
  cases G with
  | inr g => cases hG
  | inl g =>
  cases G' with
  | inr g' => cases hG'
  | inl g' =>
  obtain ⟨ms, h1, h2⟩ := hc g h
  obtain ⟨ms', h1', h2'⟩ := hc' g' h'
  refine ⟨ms, ms', h1, h1', fun j j' hj hj' hsame r m m' hm hm' a h0 ha1 => ?_⟩
  refine h2.entries h2' (dst_tiles S.geo fwd) (dst_order S.geo fwd) (by rw [h.ranks, src_length S.geo, dst_length S.geo]) hj hj' (fun p hp => ?_) hm hm' h0 ha1
  have hval := same_values h h' ht ho hj hj' hsame
  simp only [Field.val] at hval ⊢
  rw [trig3_congr (fun q hq => Sum.inl_injective (hval q hq)) fwd]

/-- C41, C43: options and batches do not change the sine and cosine transforms of the stock backend. -/
theorem C41_C43_trig {opts' : Opts} {ob' : Object} (S : StockR2R z bin bout wi wo opts ob) (S' : StockR2R z bin bout wi wo opts' ob')
    {w w' : Nat} (hw : 0 < w) (hw' : 0 < w') {junk junk' : Tag → Int × Int → Scratch} {inp inp' : Tag → Int × Int → Arr ℂ}
    (hws : EnoughWork ob ws) (hws' : EnoughWork ob' ws')
    (hW : WorldOk W ob.plan fwd) (hW' : WorldOk W' ob'.plan fwd) {nb' : Nat} {m0s' : List (Mem ℝ Unit)}
    (ha : HasArrays (srcBoxes fwd bin bout) (dstBoxes fwd bin bout) false false (ob.sizeWorkspace trigWork) nb inplace m0s)
    (ha' : HasArrays (srcBoxes fwd bin bout) (dstBoxes fwd bin bout) false false (ob'.sizeWorkspace trigWork) nb' inplace' m0s')
    (hs : SourceHolds (srcBoxes fwd bin bout) inplace) (hs' : SourceHolds (srcBoxes fwd bin bout) inplace') (hnb : 0 < nb) (hnb' : 0 < nb') :
    ∃ ms ms', performR2R ob (trigKernel (stockKernel w junk inp) ws) W fwd nb inplace s m0s = .ok ms ∧
      performR2R ob' (trigKernel (stockKernel w' junk' inp') ws') W' fwd nb' inplace' s m0s' = .ok ms' ∧
      ∀ j j', j < nb → j' < nb' → SameInput (srcBoxes fwd bin bout) inplace m0s j inplace' m0s' j' → SameOutput (dstBoxes fwd bin bout) ms j ms' j' :=
  trig_agree S.object S'.object (fun _ h => C45_calls S hw hW hnb hws h hs) (fun _ h => C45_calls S' hw' hW' hnb' hws' h hs') ha ha'

/-- C70: a device and the stock backend agree, with unrelated options, batches, worlds and for calls in place or not. -/
theorem C70_agree {opts' : Opts} {ob' : Object} (S : StockR2R z bin bout wi wo opts ob) (S' : TrigObject z bin bout wi wo opts' ob')
    {w : Nat} (hw : 0 < w) {junk : Tag → Int × Int → Scratch} {inp : Tag → Int × Int → Arr ℂ} (hD : DeviceOk D z work ob') (hws : EnoughWork ob ws)
    (hW : WorldOk W ob.plan fwd) (hW' : WorldOk W' ob'.plan fwd) {nb' : Nat} {m0s' : List (Mem ℝ Unit)}
    (ha : HasArrays (srcBoxes fwd bin bout) (dstBoxes fwd bin bout) false false (ob.sizeWorkspace trigWork) nb inplace m0s)
    (ha' : HasArrays (srcBoxes fwd bin bout) (dstBoxes fwd bin bout) false false (ob'.sizeWorkspace (deviceWork D.aligned work)) nb' inplace' m0s')
    (hs : SourceHolds (srcBoxes fwd bin bout) inplace) (hs' : SourceHolds (srcBoxes fwd bin bout) inplace') (hnb : 0 < nb) (hnb' : 0 < nb') :
    ∃ ms ms', performR2R ob (trigKernel (stockKernel w junk inp) ws) W fwd nb inplace s m0s = .ok ms ∧
      performR2R ob' (deviceKernel D) W' fwd nb' inplace' s m0s' = .ok ms' ∧
      ∀ j j', j < nb → j' < nb' → SameInput (srcBoxes fwd bin bout) inplace m0s j inplace' m0s' j' → SameOutput (dstBoxes fwd bin bout) ms j ms' j' :=
  trig_agree S.object S' (fun _ h => C45_calls S hw hW hnb hws h hs) (fun _ h => C70_calls S' hD hW' hnb' h hs') ha ha'

/-- C70: MKL and a device agree. -/
theorem C70_mkl_agree {opts' : Opts} {ob' : Object} (S : TrigObject z bin bout wi wo opts ob) (S' : TrigObject z bin bout wi wo opts' ob')
    (hK : PairLibrary K) (hD : DeviceOk D z work ob') (hws : EnoughWork ob ws)
    (hW : WorldOk W ob.plan fwd) (hW' : WorldOk W' ob'.plan fwd) {nb' : Nat} {m0s' : List (Mem ℝ Unit)}
    (ha : HasArrays (srcBoxes fwd bin bout) (dstBoxes fwd bin bout) false false (ob.sizeWorkspace trigWork) nb inplace m0s)
    (ha' : HasArrays (srcBoxes fwd bin bout) (dstBoxes fwd bin bout) false false (ob'.sizeWorkspace (deviceWork D.aligned work)) nb' inplace' m0s')
    (hs : SourceHolds (srcBoxes fwd bin bout) inplace) (hs' : SourceHolds (srcBoxes fwd bin bout) inplace') (hnb : 0 < nb) (hnb' : 0 < nb') :
    ∃ ms ms', performR2R ob (trigKernel K ws) W fwd nb inplace s m0s = .ok ms ∧
      performR2R ob' (deviceKernel D) W' fwd nb' inplace' s m0s' = .ok ms' ∧
      ∀ j j', j < nb → j' < nb' → SameInput (srcBoxes fwd bin bout) inplace m0s j inplace' m0s' j' → SameOutput (dstBoxes fwd bin bout) ms j ms' j' :=
  trig_agree S S' (fun _ h => C70_mkl_calls S hK hW hnb hws h hs) (fun _ h => C70_calls S' hD hW' hnb' h hs') ha ha'

end

/-! ## Examples -/

/-- A device for an object: the statements of all the launches backwards, the library of the examples, workspaces full of sevens. -/
theorem device_exists (z : Trig) (ob : Object) (aligned : Bool) : ∃ D, D.aligned = aligned ∧ D.all = trigAll ∧ DeviceOk D z (fun _ => 0) ob := by
  classical
  let need (b : Box) : Nat := (TrigDims.workspace (.ofBox z b aligned 1) 0).toNat
  let ws (r : Nat) : List ℝ := match ob.fft.execs[r]? with
    | none => []
    | some e => List.replicate (((List.finRange 3).map fun x => match e.get x with
      | some (.trig _ b _) => need b
      | _ => 0).sum) 7
  refine ⟨⟨trigAll, fun _ _ _ l => l.reverse, fun _ b => refLib (z.gain (b.osize 0).toNat) (numLines b).toNat, aligned, fun _ => 1, fun tag => ws tag.rank⟩,
    rfl, rfl, .inl rfl, fun _ _ _ l => List.reverse_perm l, fun _ => le_rfl, fun _ b _ hn => refLib_good (gain_pos hn) le_rfl _ _, ?_⟩
  intro tag e x b d he hget
  have hle : need b ≤ ((List.finRange 3).map fun x => match e.get x with
      | some (.trig _ b _) => need b
      | _ => 0).sum := by
    refine List.single_le_sum (by simp) _ (List.mem_map.2 ⟨x, List.mem_finRange x, ?_⟩)
    rw [hget]
  simp only [ws, he, List.length_replicate]
  exact le_trans (Int.self_le_toNat _) (by exact_mod_cast hle)

/-- C70: a device and the stock backend on four ranks with 4 x 6 x 8 indexes. -/
example (z : Trig) (opts opts' : Opts) (g : Nat → A3 Int → ℝ) :
    ∃ ob ob' D, ∃ (ws : Tag → List ℝ) (W W' : World ℝ Unit) (m0s ms ms' : List (Mem ℝ Unit)), DeviceOk D z (fun _ => 0) ob' ∧
      performR2R ob (trigKernel (stockKernel 4 (fun _ _ => ⟨fun _ => 0, fun _ _ => 0⟩) (fun _ _ _ => 0)) ws) W true 2 (fun _ => false) .full m0s = .ok ms ∧
      performR2R ob' (deviceKernel D) W' true 2 (fun _ => false) .full m0s = .ok ms' ∧ SameOutput exOut ms 1 ms' 1 := by
  obtain ⟨wi, wo, ob, S⟩ := exObjectR2R z opts
  obtain ⟨wi', wo', ob', S'⟩ := exObjectR2R z opts'
  obtain rfl := Except.ok.inj (S.geo.worldIn.symm.trans S'.geo.worldIn)
  obtain rfl := Except.ok.inj (S.geo.worldOut.symm.trans S'.geo.worldOut)
  obtain ⟨D, -, -, hD⟩ := device_exists z ob' true
  obtain ⟨W, hW⟩ := world_exists (α := ℝ) (β := Unit) ob.plan true
  obtain ⟨W', hW'⟩ := world_exists (α := ℝ) (β := Unit) ob'.plan true
  obtain ⟨ws, hws⟩ := work_exists ob
  let need : Nat → Int := fun r => max (ob.sizeWorkspace trigWork r) (ob'.sizeWorkspace (deviceWork D.aligned fun _ => 0) r)
  obtain ⟨m0s, h⟩ := arrays_exist exIn exOut false need 2 (.inl g : Field ℝ Unit) (src_order S.geo true)
  have hs : SourceHolds exIn fun _ => false := exSource _ (by simp)
  have ha : ∀ n : Nat → Int, (∀ r, n r ≤ need r) → HasArrays exIn exOut false false n 2 (fun _ => false) m0s := fun n hn => by
    have := h.has
    exact ⟨this.ranks, this.input, this.output, this.inputSize, this.outputSize, fun r m hm => le_trans (by have := hn r; omega) (this.work r m hm)⟩
  obtain ⟨ms, ms', h1, h2, h3⟩ := C70_agree (s := .full) (fwd := true) (junk := fun _ _ => ⟨fun _ => 0, fun _ _ => 0⟩) (inp := fun _ _ _ => 0) S S'.object (by decide : 0 < 4)
    hD hws hW hW' (ha _ fun r => le_max_left _ _) (ha _ fun r => le_max_right _ _) hs hs (by decide) (by decide)
  have hsame : SameInput exIn (fun _ => false) m0s 1 (fun _ => false) m0s 1 := fun r m m' hm hm' a _ _ => by
    obtain rfl := Option.some.inj (hm.symm.trans hm'); rfl
  exact ⟨ob, ob', D, ws, W, W', m0s, ms, ms', hD, h1, h2, h3 1 1 (by decide) (by decide) hsame⟩

/-- C70 with MKL: the library of the examples has pairs. -/
theorem exact_pairs : PairLibrary exactKernel := ⟨exact_library, fun _ => rfl, fun _ _ => rfl⟩

/-- C70: round trips with MKL, for 4 x 6 x 8 indexes. -/
example (z : Trig) (opts : Opts) (g : Nat → A3 Int → ℝ) :
    ∃ ob, ∃ (ws : Tag → List ℝ) (W W' : World ℝ Unit) (m0s ms m1s ms' : List (Mem ℝ Unit)), Continues (fun _ => false) ms m1s ∧
      performR2R ob (trigKernel exactKernel ws) W true 2 (fun _ => false) .none m0s = .ok ms ∧
      performR2R ob (trigKernel exactKernel ws) W' false 2 (fun _ => false) .full m1s = .ok ms' ∧ Outcome exIn 2 m1s ms' (.inl g) := by
  obtain ⟨wi, wo, ob, S⟩ := exObjectR2R z opts
  obtain ⟨W, hW⟩ := world_exists (α := ℝ) (β := Unit) ob.plan true
  obtain ⟨W', hW'⟩ := world_exists (α := ℝ) (β := Unit) ob.plan false
  obtain ⟨ws, hws⟩ := work_exists ob
  obtain ⟨m0s, h⟩ := arrays_exist exIn exOut false (ob.sizeWorkspace trigWork) 2 (.inl g : Field ℝ Unit) (src_order S.geo true)
  have hs : SourceHolds exIn fun _ => false := exSource _ (by simp)
  have hs' : SourceHolds exOut fun _ => false := exSource _ (by simp)
  obtain ⟨ms, h1, h2⟩ := C70_mkl_calls (s := .none) (fwd := true) S.object exact_pairs hW (by decide : 0 < 2) hws h hs
  obtain ⟨m1s, h3, h4⟩ := swap_arrays (src := exIn) (dst := exOut) rfl h.has h2
  obtain ⟨ms2, h5, h6⟩ := C70_mkl_round_trip (s := .none) (s' := .full) S.object exact_pairs hW hW' (by decide : 0 < 2) hws hws h hs hs'
  obtain rfl := Except.ok.inj (h1.symm.trans h5)
  obtain ⟨ms', h7, -, h8⟩ := h6 m1s h3 h4
  exact ⟨ob, ws, W, W', m0s, ms, m1s, ms', h4, h1, h7, h8 (.inr (.inl ⟨rfl, rfl⟩))⟩

/-- C70: round trips on a device, for 4 x 6 x 8 indexes. -/
example (z : Trig) (opts : Opts) (g : Nat → A3 Int → ℝ) :
    ∃ ob D, ∃ (W W' : World ℝ Unit) (m0s ms m1s ms' : List (Mem ℝ Unit)), DeviceOk D z (fun _ => 0) ob ∧ Continues (fun _ => false) ms m1s ∧
      performR2R ob (deviceKernel D) W true 2 (fun _ => false) .none m0s = .ok ms ∧
      performR2R ob (deviceKernel D) W' false 2 (fun _ => false) .full m1s = .ok ms' ∧ Outcome exIn 2 m1s ms' (.inl g) := by
  obtain ⟨wi, wo, ob, S⟩ := exObjectR2R z opts
  obtain ⟨W, hW⟩ := world_exists (α := ℝ) (β := Unit) ob.plan true
  obtain ⟨W', hW'⟩ := world_exists (α := ℝ) (β := Unit) ob.plan false
  obtain ⟨D, -, -, hD⟩ := device_exists z ob false
  obtain ⟨m0s, h⟩ := arrays_exist exIn exOut false (ob.sizeWorkspace (deviceWork D.aligned fun _ => 0)) 2 (.inl g : Field ℝ Unit) (src_order S.geo true)
  have hs : SourceHolds exIn fun _ => false := exSource _ (by simp)
  have hs' : SourceHolds exOut fun _ => false := exSource _ (by simp)
  obtain ⟨ms, h1, h2⟩ := C70_calls (s := .none) (fwd := true) S.object hD hW (by decide : 0 < 2) h hs
  obtain ⟨m1s, h3, h4⟩ := swap_arrays (src := exIn) (dst := exOut) rfl h.has h2
  obtain ⟨ms2, h5, h6⟩ := C70_round_trip (s := .none) (s' := .full) S.object hD hD rfl hW hW' (by decide : 0 < 2) h hs hs'
  obtain rfl := Except.ok.inj (h1.symm.trans h5)
  obtain ⟨ms', h7, -, h8⟩ := h6 m1s h3 h4
  exact ⟨ob, D, W, W', m0s, ms, m1s, ms', hD, h4, h1, h7, h8 (.inr (.inl ⟨rfl, rfl⟩))⟩

end Verif
