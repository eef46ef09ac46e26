import Verif.CallData

/-!
# Properties of the calls of the transform objects (C38, C40, C41, C43, C44, C52, C53)

The objects of the stock backend, created and called on all the ranks, in exact arithmetic.  `CallArrays` and `HasArrays` are the
arrays that the user has to provide, `Outcome` is the state of the arrays afterwards.
-/

namespace Verif
open Stock

/-- An `fft3d` object of the stock backend on a valid geometry.  `GoodLength` is the guard of C34: the factorization misses the squares of
primes above 1213. -/
structure StockC2C (bin bout : List Box) (wi wo : Box) (opts : Opts) (ob : Object) : Prop where
  geo : Geometry bin bout none wi wo
  made : makeFft3d .stock bin bout opts = .ok ob
  lengths : ∀ d, GoodLength (wi.extent d)

/-- An `fft3d_r2c` object that shrinks direction `d`.  The two guards are those of C17 and C18. -/
structure StockR2C (bin bout : List Box) (d : Fin 3) (wi wo : Box) (opts : Opts) (ob : Object) : Prop where
  geo : Geometry bin bout (some d) wi wo
  made : makeFft3dR2C bin bout d opts = .ok ob
  lengths : ∀ d, GoodLength (wi.extent d)
  first : RankZeroHolds bin
  small : ∀ b ∈ bin, b.count < 2 ^ 31

/-- `workspace_size` of the stock executors (stock.h:528, 611). -/
def noWork : Executor → Int := fun _ => 0

/-- The input box of every rank has an index, as the documentation asks for (fft3d.h:162-163); it does not matter for calls in place. -/
def SourceHolds (src : List Box) (inplace : Nat → Bool) : Prop :=
  ∀ r, r < src.length → inplace r = true ∨ ∃ p : A3 Int, p ∈ boxAt src r

section
variable {bin bout : List Box} {wi wo : Box} {opts : Opts} {ob : Object} {d : Fin 3} {w : Nat} {junk : Tag → Int × Int → Scratch}
  {inp : Tag → Int × Int → Arr ℂ} {W : World ℂ ℝ} {fwd : Bool} {nb : Nat} {inplace : Nat → Bool} {s : Scaling} {m0s : List (Mem ℂ ℝ)}

theorem src_length {r2c : Option (Fin 3)} (geo : Geometry bin bout r2c wi wo) (fwd : Bool) : (srcBoxes fwd bin bout).length = bin.length := by
  cases fwd
  · exact geo.length
  · rfl

theorem dst_length {r2c : Option (Fin 3)} (geo : Geometry bin bout r2c wi wo) (fwd : Bool) : (dstBoxes fwd bin bout).length = bin.length := by
  cases fwd
  · rfl
  · exact geo.length

theorem src_order {r2c : Option (Fin 3)} (geo : Geometry bin bout r2c wi wo) (fwd : Bool) : ∀ b ∈ srcBoxes fwd bin bout, IsOrder b.order := by
  intro b hb
  obtain ⟨o, q1, q2⟩ := geo.orderIn
  obtain ⟨o', q3, q4⟩ := geo.orderOut
  cases fwd with
  | true => rw [q2 b hb]; exact q1
  | false => rw [q4 b hb]; exact q3

theorem dst_order {r2c : Option (Fin 3)} (geo : Geometry bin bout r2c wi wo) (fwd : Bool) : ∀ b ∈ dstBoxes fwd bin bout, IsOrder b.order := by
  intro b hb
  obtain ⟨o, q1, q2⟩ := geo.orderIn
  obtain ⟨o', q3, q4⟩ := geo.orderOut
  cases fwd with
  | true => rw [q4 b hb]; exact q3
  | false => rw [q2 b hb]; exact q1

theorem extent_pos {r2c : Option (Fin 3)} (geo : Geometry bin bout r2c wi wo) (e : Fin 3) : 1 ≤ wi.extent e := by
  obtain ⟨p, hp⟩ := geo.nonempty
  have := Box.mem_def.1 hp e
  unfold Box.extent
  omega

theorem source_empty {src : List Box} (h : SourceHolds src inplace) {r : Nat} (hr : r < src.length) :
    inplace r = true ∨ (boxAt src r).empty = false := by
  rcases h r hr with h | ⟨p, hp⟩
  · exact .inl h
  · exact .inr (Box.empty_false_of_mem hp)

/-- All the calls of an `fft3d`. -/
theorem stock_call (S : StockC2C bin bout wi wo opts ob) (hw : 0 < w) {mode : Mode} (hm : ModeOk mode fwd none) {G : Field ℂ ℝ}
    (hG : G.isReal = decide (mode = .r2c))
    (ha : CallArrays (srcBoxes fwd bin bout) (dstBoxes fwd bin bout) (decide (mode = .r2c)) (decide (mode = .c2r)) (ob.sizeWorkspace noWork) nb inplace m0s G)
    (hW : WorldOk W ob.plan fwd) (hnb : 0 < nb) (hin : ∀ r, r < bin.length → inplace r = true → mode = .same)
    (hfirst : mode = .r2c ∨ SourceHolds (srcBoxes fwd bin bout) inplace) :
    ∃ ms, perform ob (stockKernel w junk inp) W mode fwd nb inplace s m0s = .ok ms ∧
      Outcome (dstBoxes fwd bin bout) nb m0s ms (times (s.factor wi.count)
        (fieldC2C (stockKernel w junk inp) wi dft (fun x => [ob.plan.dirs x]) mode fwd G 3)) := by
  obtain ⟨-, hfam, hp, e1, e2, -, hc, -⟩ := makeFft3d_ok S.geo S.made
  refine run_of_transform S.geo e1 e2 hfam hc ha (call_stock (stockKernel_ok hw junk inp) S.geo S.made hm (fun e => ?_) hG (fun _ => le_rfl) ha hW hnb hin ?_)
  · rw [← extent_eq]; exact ⟨extent_pos S.geo e, S.lengths e⟩
  · rcases hfirst with h | h
    · exact .inl h
    · exact .inr fun r hr => source_empty h (by rw [src_length S.geo]; exact hr)

/-! ## C40 and C52: complex data -/

/-- C40, C52: the forward and backward calls with complex data compute the three dimensional transform. -/
theorem C40_complex (S : StockC2C bin bout wi wo opts ob) (hw : 0 < w) (hW : WorldOk W ob.plan fwd) (hnb : 0 < nb) {g : Nat → A3 Int → ℂ}
    (ha : CallArrays (srcBoxes fwd bin bout) (dstBoxes fwd bin bout) false false (ob.sizeWorkspace noWork) nb inplace m0s (.inl g))
    (hs : SourceHolds (srcBoxes fwd bin bout) inplace) :
    ∃ ms, perform ob (stockKernel w junk inp) W .same fwd nb inplace s m0s = .ok ms ∧
      Outcome (dstBoxes fwd bin bout) nb m0s ms (.inl fun j p => (s.factor wi.count : ℂ) * dft3 fwd wi (g j) p) := by
  obtain ⟨ms, h1, h2⟩ := stock_call (junk := junk) (inp := inp) (s := s) S hw (mode := .same) ⟨by simp, by simp, fun _ => rfl⟩ rfl ha hW hnb
    (fun _ _ _ => rfl) (.inr hs)
  refine ⟨ms, h1, ?_⟩
  obtain ⟨-, -, hp, -⟩ := makeFft3d_ok S.geo S.made
  have e : fieldC2C (stockKernel w junk inp) wi dft (fun x => [ob.plan.dirs x]) .same fwd (.inl g) 3 = .inl fun j => dft3 fwd wi (g j) := by
    unfold fieldC2C
    simp only [reduceCtorEq, false_and, if_false]
    rw [chain_dft3 hp.dirs]
  rw [e] at h2
  exact h2

/-- C40: the forward call of an `fft3d` with real data. -/
theorem C40_real (S : StockC2C bin bout wi wo opts ob) (hw : 0 < w) (hW : WorldOk W ob.plan true) (hnb : 0 < nb) {g : Nat → A3 Int → ℝ}
    (ha : CallArrays bin bout true false (ob.sizeWorkspace noWork) nb (fun _ => false) m0s (.inr g)) :
    ∃ ms, perform ob (stockKernel w junk inp) W .r2c true nb (fun _ => false) s m0s = .ok ms ∧
      Outcome bout nb m0s ms (.inl fun j p => (s.factor wi.count : ℂ) * dft3 true wi (fun q => (g j q : ℂ)) p) := by
  obtain ⟨ms, h1, h2⟩ := stock_call (junk := junk) (inp := inp) (s := s) S hw (fwd := true) (mode := .r2c) ⟨fun _ => rfl, by simp, by simp⟩ rfl ha hW hnb
    (fun _ _ h => by cases h) (.inl rfl)
  refine ⟨ms, h1, ?_⟩
  obtain ⟨-, -, hp, -⟩ := makeFft3d_ok S.geo S.made
  have e : fieldC2C (stockKernel w junk inp) wi dft (fun x => [ob.plan.dirs x]) .r2c true (.inr g) 3 =
      .inl fun j => dft3 true wi (fun q => (g j q : ℂ)) := by
    unfold fieldC2C
    simp only [reduceCtorEq, false_and, and_false, if_false, Fin.reduceEq]
    rw [chain_dft3 hp.dirs]
    rfl
  rw [e] at h2
  exact h2

/-- C52: the backward call of an `fft3d` to real data gives the real parts of the transform. -/
theorem C52_real (S : StockC2C bin bout wi wo opts ob) (hw : 0 < w) (hW : WorldOk W ob.plan false) (hnb : 0 < nb) {g : Nat → A3 Int → ℂ}
    (ha : CallArrays bout bin false true (ob.sizeWorkspace noWork) nb (fun _ => false) m0s (.inl g)) (hs : SourceHolds bout fun _ => false) :
    ∃ ms, perform ob (stockKernel w junk inp) W .c2r false nb (fun _ => false) s m0s = .ok ms ∧
      Outcome bin nb m0s ms (.inr fun j p => s.factor wi.count * (dft3 false wi (g j) p).re) := by
  obtain ⟨ms, h1, h2⟩ := stock_call (junk := junk) (inp := inp) (s := s) S hw (fwd := false) (mode := .c2r) ⟨by simp, fun _ => rfl, by simp⟩ rfl ha hW hnb
    (fun _ _ h => by cases h) (.inr hs)
  refine ⟨ms, h1, ?_⟩
  obtain ⟨-, -, hp, -⟩ := makeFft3d_ok S.geo S.made
  have e : fieldC2C (stockKernel w junk inp) wi dft (fun x => [ob.plan.dirs x]) .c2r false (.inl g) 3 =
      .inr fun j p => (dft3 false wi (g j) p).re := by
    unfold fieldC2C
    simp only [reduceCtorEq, false_and, true_and, if_false, if_true]
    rw [chain_dft3 hp.dirs]
    rfl
  rw [e] at h2
  exact h2

/-! ## C53: `fft3d_r2c` -/

/-- On a rank with data some reshape follows the first executor; see `C43_r2c_false`. -/
def ReshapesAfter (ob : Object) (n : Nat) : Prop := ∀ r, r < n → ∃ i : Fin 4, i ≠ 0 ∧ (shaperAt ob.fft.fwd r i).isSome = true

theorem wo_extent {r2c : Option (Fin 3)} (hc : ComplexWorld wi wo r2c) {e : Fin 3} (he : r2c ≠ some e) : wo.extent e = wi.extent e := by
  have := hc e
  rw [if_neg he] at this
  unfold Box.extent
  rw [this.1, this.2]

theorem stock_call_r2c (S : StockR2C bin bout d wi wo opts ob) (hw : 0 < w) {mode : Mode} (hm : ModeOk mode fwd (some d)) {G : Field ℂ ℝ}
    (hG : G.isReal = decide (mode = .r2c))
    (ha : CallArrays (srcBoxes fwd bin bout) (dstBoxes fwd bin bout) (decide (mode = .r2c)) (decide (mode = .c2r)) (ob.sizeWorkspace noWork) nb (fun _ => false) m0s G)
    (hW : WorldOk W ob.plan fwd) (hnb : 0 < nb)
    (hfirst : mode = .r2c ∨ SourceHolds (srcBoxes fwd bin bout) fun _ => false) (hhalf : mode = .r2c → nb = 1 ∨ ReshapesAfter ob bin.length) :
    ∃ ms, perform ob (stockKernel w junk inp) W mode fwd nb (fun _ => false) s m0s = .ok ms ∧
      Outcome (dstBoxes fwd bin bout) nb m0s ms (times (s.factor wi.count) (fieldR2C wi wo dft r2c c2r ob.plan.dirs G 3)) := by
  obtain ⟨hp, e1, e2, -, hfam, hc, -⟩ := makeFft3dR2C_ok S.geo S.first S.small S.made
  refine run_of_transform S.geo e1 e2 hfam hc ha (call_r2c (stockKernel_ok hw junk inp) S.geo S.first S.small S.made hm ?_ (fun e he => ?_) hG (fun _ => le_rfl)
    ha hW hnb (fun _ _ => rfl) ?_ hhalf)
  · rw [← extent_eq]; exact ⟨extent_pos S.geo d, S.lengths d⟩
  · rw [← extent_eq, wo_extent S.geo.complex (fun h => he (Option.some.inj h).symm)]; exact ⟨extent_pos S.geo e, S.lengths e⟩
  · rcases hfirst with h | h
    · exact .inl h
    · refine .inr fun r hr => ?_
      rcases source_empty h (r := r) (by rw [src_length S.geo]; exact hr) with h | h
      · cases h
      · exact h

/-- C53: the forward call of an `fft3d_r2c` gives the half of the transform that belongs to the complex world. -/
theorem C53_forward (S : StockR2C bin bout d wi wo opts ob) (hw : 0 < w) (hW : WorldOk W ob.plan true) (hnb : 0 < nb) {g : Nat → A3 Int → ℝ}
    (ha : CallArrays bin bout true false (ob.sizeWorkspace noWork) nb (fun _ => false) m0s (.inr g))
    (hhalf : nb = 1 ∨ ReshapesAfter ob bin.length) :
    ∃ ms, perform ob (stockKernel w junk inp) W .r2c true nb (fun _ => false) s m0s = .ok ms ∧
      Outcome bout nb m0s ms (.inl fun j p => (s.factor wi.count : ℂ) * dft3 true wi (fun q => (g j q : ℂ)) p) := by
  obtain ⟨ms, h1, h2⟩ := stock_call_r2c (junk := junk) (inp := inp) (s := s) S hw (fwd := true) (mode := .r2c) ⟨fun _ => rfl, by simp, by simp⟩ rfl ha hW hnb
    (.inl rfl) (fun _ => hhalf)
  refine ⟨ms, h1, ?_⟩
  obtain ⟨hp, -⟩ := makeFft3dR2C_ok S.geo S.first S.small S.made
  have hd := hp.dirs
  rw [hp.dir0 d rfl] at hd
  have e : fieldR2C wi wo dft r2c c2r ob.plan.dirs (.inr g) 3 = .inl fun j => dft3 true wi (fun q => (g j q : ℂ)) := by
    unfold fieldR2C
    simp only
    congr 1
    funext j
    rw [hp.dir0 d rfl]
    exact r2c_dft3 S.geo.complex hd (g j)
  rw [e] at h2
  exact h2

/-- C53: the backward call of an `fft3d_r2c` completes the spectrum and gives the transform of it. -/
theorem C53_backward (S : StockR2C bin bout d wi wo opts ob) (hw : 0 < w) (hW : WorldOk W ob.plan false) (hnb : 0 < nb) {g : Nat → A3 Int → ℂ}
    (ha : CallArrays bout bin false true (ob.sizeWorkspace noWork) nb (fun _ => false) m0s (.inl g)) (hs : SourceHolds bout fun _ => false) :
    ∃ ms, perform ob (stockKernel w junk inp) W .c2r false nb (fun _ => false) s m0s = .ok ms ∧
      Outcome bin nb m0s ms (.inr fun j p => s.factor wi.count * c2r3 wi d (g j) p) := by
  obtain ⟨ms, h1, h2⟩ := stock_call_r2c (junk := junk) (inp := inp) (s := s) S hw (fwd := false) (mode := .c2r) ⟨by simp, fun _ => rfl, by simp⟩ rfl ha hW hnb
    (.inr hs) (fun h => by cases h)
  refine ⟨ms, h1, ?_⟩
  obtain ⟨hp, -⟩ := makeFft3dR2C_ok S.geo S.first S.small S.made
  have hd := hp.dirs
  rw [hp.dir0 d rfl] at hd
  have e : fieldR2C wi wo dft r2c c2r ob.plan.dirs (.inl g) 3 = .inr fun j => c2r3 wi d (g j) := by
    unfold fieldR2C
    simp only
    congr 1
    funext j p
    rw [hp.dir0 d rfl]
    have := extent_pos S.geo d
    unfold Box.extent at this
    exact c2r_dft3 S.geo.complex hd (g j) (by omega) p
  rw [e] at h2
  exact h2

/-! ## C38: forward and backward -/

theorem dft3_mul (fwd : Bool) (w : Box) (c : ℂ) (G : A3 Int → ℂ) (p : A3 Int) : dft3 fwd w (fun q => c * G q) p = c * dft3 fwd w G p := by
  unfold dft3
  rw [Finset.mul_sum]
  exact Finset.sum_congr rfl fun q _ => by ring

theorem c2r3_mul (w : Box) (d : Fin 3) (c : ℝ) (G : A3 Int → ℂ) (p : A3 Int) : c2r3 w d (fun q => (c : ℂ) * G q) p = c * c2r3 w d G p := by
  unfold c2r3
  have : fullSpectrum3 w d (fun q => (c : ℂ) * G q) = fun q => (c : ℂ) * fullSpectrum3 w d G q := by
    funext q
    unfold fullSpectrum3
    split
    · rfl
    · rw [map_mul, Complex.conj_ofReal]
  rw [this, dft3_mul]
  simp

/-- The second call reads what the first one has written. -/
def Continues {α β : Type} (inplace : Nat → Bool) (ms m1s : List (Mem α β)) : Prop :=
  ∀ (r : Nat) m m1, ms[r]? = some m → m1s[r]? = some m1 → inputOf inplace r m1 = m.output

theorem continue_arrays {α β : Type} {src dst : List Box} {realIn realOut : Bool} {need : Nat → Int} {m0s ms m1s : List (Mem α β)} {F : Field α β}
    (h : HasArrays src dst realIn realOut need nb inplace m1s) (ho : Outcome src nb m0s ms F) (hl : m0s.length = src.length)
    (hc : Continues inplace ms m1s) : CallArrays src dst realIn realOut need nb inplace m1s F := by
  refine ⟨h.ranks, h.input, h.output, h.inputSize, h.outputSize, fun r m1 hr j hj => ?_, h.work⟩
  have hr' : r < ms.length := by rw [ho.ranks, hl, ← h.ranks]; exact (List.getElem?_eq_some_iff.1 hr).1
  show HoldsSlot _ _ (inputOf inplace r m1) _
  rw [hc r _ m1 (List.getElem?_eq_getElem hr') hr]
  exact ho.values r _ (List.getElem?_eq_getElem hr') j hj

theorem Outcome.congr {α β : Type} {dst : List Box} {v : Box} {m0s ms : List (Mem α β)} {F F' : Field α β} (h : Outcome dst nb m0s ms F) (ht : Tiles dst v)
    (hl : m0s.length = dst.length) (hF : ∀ j, j < nb → ∀ p ∈ v, F.val j p = F'.val j p) : Outcome dst nb m0s ms F' := by
  refine ⟨h.ranks, h.same, fun r m hr j hj p hp => ?_⟩
  have hr' : r < dst.length := by rw [← hl, ← h.ranks]; exact (List.getElem?_eq_some_iff.1 hr).1
  rw [h.values r m hr j hj p hp, hF j hj p (ht.mem_world (boxAt_mem hr') hp)]

theorem dst_tiles (geo : Geometry bin bout none wi wo) (fwd : Bool) : Tiles (dstBoxes fwd bin bout) wi := by
  have hw : ∀ p, p ∈ wo ↔ p ∈ wi := by
    intro p
    simp only [Box.mem_def]
    refine forall_congr' fun e => ?_
    have := geo.complex e
    rw [if_neg (by simp)] at this
    rw [this.1, this.2]
  cases fwd with
  | false => exact geo.tilesIn
  | true =>
    intro p
    rw [show dstBoxes true bin bout = bout from rfl, geo.tilesOut p]
    by_cases h : p ∈ wo
    · rw [if_pos h, if_pos ((hw p).1 h)]
    · rw [if_neg h, if_neg fun h' => h ((hw p).2 h')]

/-- The product of the factors of two calls that makes them inverse. -/
def Inverse (s s' : Scaling) : Prop := (s = .full ∧ s' = .none) ∨ (s = .none ∧ s' = .full) ∨ (s = .symmetric ∧ s' = .symmetric)

theorem inverse_factor {s s' : Scaling} {n : Int} (h : Inverse s s') (hn : 0 < n) : s'.factor n * s.factor n * n = 1 := by
  have hn' : (0 : ℝ) < n := by exact_mod_cast hn
  rcases h with ⟨rfl, rfl⟩ | ⟨rfl, rfl⟩ | ⟨rfl, rfl⟩
  · simp only [Scaling.factor]; field_simp
  · simp only [Scaling.factor]; field_simp
  · simp only [Scaling.factor]
    have h2 : Real.sqrt (n : ℝ) ≠ 0 := (Real.sqrt_pos.2 hn').ne'
    have h3 : Real.sqrt (n : ℝ) * Real.sqrt n = n := Real.mul_self_sqrt hn'.le
    field_simp
    nlinarith [h3]

theorem world_count_pos {r2c : Option (Fin 3)} (geo : Geometry bin bout r2c wi wo) : 0 < wi.count := by
  obtain ⟨p, hp⟩ := geo.nonempty
  exact Box.count_pos_iff.2 (Box.empty_false_of_mem hp)

/-- C38: a call with complex data and one in the other direction on its output give the data times the number of indexes and the two
factors; they give the data if the scalings fit.  `fwd` is the direction of the first call. -/
theorem C38_complex (S : StockC2C bin bout wi wo opts ob) (hw : 0 < w) {W' : World ℂ ℝ} (hW : WorldOk W ob.plan fwd) (hW' : WorldOk W' ob.plan !fwd)
    (hnb : 0 < nb) {g : Nat → A3 Int → ℂ} {inplace' : Nat → Bool} {s' : Scaling}
    (ha : CallArrays (srcBoxes fwd bin bout) (dstBoxes fwd bin bout) false false (ob.sizeWorkspace noWork) nb inplace m0s (.inl g))
    (hs : SourceHolds (srcBoxes fwd bin bout) inplace) (hs' : SourceHolds (dstBoxes fwd bin bout) inplace') :
    ∃ ms, perform ob (stockKernel w junk inp) W .same fwd nb inplace s m0s = .ok ms ∧
      ∀ m1s, HasArrays (dstBoxes fwd bin bout) (srcBoxes fwd bin bout) false false (ob.sizeWorkspace noWork) nb inplace' m1s →
        Continues inplace' ms m1s →
        ∃ ms', perform ob (stockKernel w junk inp) W' .same (!fwd) nb inplace' s' m1s = .ok ms' ∧
          Outcome (srcBoxes fwd bin bout) nb m1s ms' (.inl fun j p => ((s'.factor wi.count * s.factor wi.count * wi.count : ℝ) : ℂ) * g j p) ∧
          (Inverse s s' → Outcome (srcBoxes fwd bin bout) nb m1s ms' (.inl g)) := by
  obtain ⟨ms, h1, h2⟩ := C40_complex (junk := junk) (inp := inp) (s := s) S hw hW hnb ha hs
  refine ⟨ms, h1, fun m1s hm1 hcont => ?_⟩
  have hlen : m0s.length = (dstBoxes fwd bin bout).length := by rw [ha.ranks, src_length S.geo, dst_length S.geo]
  have hca := continue_arrays hm1 h2 hlen hcont
  have hsw : ∀ b : Bool, srcBoxes (!b) bin bout = dstBoxes b bin bout ∧ dstBoxes (!b) bin bout = srcBoxes b bin bout := by
    intro b; cases b <;> exact ⟨rfl, rfl⟩
  rw [← (hsw fwd).1, ← (hsw fwd).2] at hca
  rw [← (hsw fwd).1] at hs'
  obtain ⟨ms', h3, h4⟩ := C40_complex (junk := junk) (inp := inp) (s := s') S hw hW' hnb hca hs'
  have htile : Tiles (srcBoxes fwd bin bout) wi := by rw [← (hsw fwd).2]; exact dst_tiles S.geo _
  rw [(hsw fwd).2] at h4
  have h5 : Outcome (srcBoxes fwd bin bout) nb m1s ms' (.inl fun j p => ((s'.factor wi.count * s.factor wi.count * wi.count : ℝ) : ℂ) * g j p) := by
    refine h4.congr htile (by rw [hm1.ranks, dst_length S.geo, src_length S.geo]) fun j _ p hp => ?_
    simp only [Field.val]
    rw [dft3_mul, dft3_inv fwd wi (g j) hp]
    push_cast
    congr 1
    ring
  refine ⟨ms', h3, h5, fun hinv => ?_⟩
  rw [inverse_factor hinv (world_count_pos S.geo)] at h5
  simpa using h5

/-- C38: an `fft3d_r2c` forward and backward. -/
theorem C38_r2c (S : StockR2C bin bout d wi wo opts ob) (hw : 0 < w) {W' : World ℂ ℝ} (hW : WorldOk W ob.plan true) (hW' : WorldOk W' ob.plan false)
    (hnb : 0 < nb) {g : Nat → A3 Int → ℝ} {s' : Scaling}
    (ha : CallArrays bin bout true false (ob.sizeWorkspace noWork) nb (fun _ => false) m0s (.inr g))
    (hhalf : nb = 1 ∨ ReshapesAfter ob bin.length) (hs' : SourceHolds bout fun _ => false) :
    ∃ ms, perform ob (stockKernel w junk inp) W .r2c true nb (fun _ => false) s m0s = .ok ms ∧
      ∀ m1s, HasArrays bout bin false true (ob.sizeWorkspace noWork) nb (fun _ => false) m1s → Continues (fun _ => false) ms m1s →
        ∃ ms', perform ob (stockKernel w junk inp) W' .c2r false nb (fun _ => false) s' m1s = .ok ms' ∧
          Outcome bin nb m1s ms' (.inr fun j p => s'.factor wi.count * s.factor wi.count * wi.count * g j p) ∧
          (Inverse s s' → Outcome bin nb m1s ms' (.inr g)) := by
  obtain ⟨ms, h1, h2⟩ := C53_forward (junk := junk) (inp := inp) (s := s) S hw hW hnb ha hhalf
  refine ⟨ms, h1, fun m1s hm1 hcont => ?_⟩
  have hca := continue_arrays hm1 h2 (by rw [ha.ranks, S.geo.length]) hcont
  obtain ⟨ms', h3, h4⟩ := C53_backward (junk := junk) (inp := inp) (s := s') S hw hW' hnb hca hs'
  have h5 : Outcome bin nb m1s ms' (.inr fun j p => s'.factor wi.count * s.factor wi.count * wi.count * g j p) := by
    refine h4.congr S.geo.tilesIn (by rw [hm1.ranks, S.geo.length]) fun j _ p hp => ?_
    simp only [Field.val]
    rw [c2r3_mul, c2r3_dft3 d (g j) hp]
    congr 1
    ring
  refine ⟨ms', h3, h5, fun hinv => ?_⟩
  rw [inverse_factor hinv (world_count_pos S.geo)] at h5
  simpa using h5

/-- C38: an `fft3d` with real data, forward and backward. -/
theorem C38_real (S : StockC2C bin bout wi wo opts ob) (hw : 0 < w) {W' : World ℂ ℝ} (hW : WorldOk W ob.plan true) (hW' : WorldOk W' ob.plan false)
    (hnb : 0 < nb) {g : Nat → A3 Int → ℝ} {s' : Scaling}
    (ha : CallArrays bin bout true false (ob.sizeWorkspace noWork) nb (fun _ => false) m0s (.inr g)) (hs' : SourceHolds bout fun _ => false) :
    ∃ ms, perform ob (stockKernel w junk inp) W .r2c true nb (fun _ => false) s m0s = .ok ms ∧
      ∀ m1s, HasArrays bout bin false true (ob.sizeWorkspace noWork) nb (fun _ => false) m1s → Continues (fun _ => false) ms m1s →
        ∃ ms', perform ob (stockKernel w junk inp) W' .c2r false nb (fun _ => false) s' m1s = .ok ms' ∧
          Outcome bin nb m1s ms' (.inr fun j p => s'.factor wi.count * s.factor wi.count * wi.count * g j p) ∧
          (Inverse s s' → Outcome bin nb m1s ms' (.inr g)) := by
  obtain ⟨ms, h1, h2⟩ := C40_real (junk := junk) (inp := inp) (s := s) S hw hW hnb ha
  refine ⟨ms, h1, fun m1s hm1 hcont => ?_⟩
  have hca := continue_arrays hm1 h2 (by rw [ha.ranks, S.geo.length]) hcont
  obtain ⟨ms', h3, h4⟩ := C52_real (junk := junk) (inp := inp) (s := s') S hw hW' hnb hca hs'
  have h5 : Outcome bin nb m1s ms' (.inr fun j p => s'.factor wi.count * s.factor wi.count * wi.count * g j p) := by
    refine h4.congr S.geo.tilesIn (by rw [hm1.ranks, S.geo.length]) fun j _ p hp => ?_
    simp only [Field.val]
    have hinv := dft3_inv true wi (fun q => (g j q : ℂ)) hp
    rw [Bool.not_true] at hinv
    rw [dft3_mul, hinv]
    simp
    ring
  refine ⟨ms', h3, h5, fun hinv => ?_⟩
  rw [inverse_factor hinv (world_count_pos S.geo)] at h5
  simpa using h5

/-! ## C41 and C43: options and batches -/

/-- The entries of the slot `j` of the first array are those of the slot `j'` of the second one, for a box with `n` indexes. -/
def SameSlot {α β : Type} (n : Int) (x : Data α β) (j : Nat) (x' : Data α β) (j' : Nat) : Prop := ∀ a, 0 ≤ a → a < n → x.rd (j * n + a) = x'.rd (j' * n + a)

/-- Slot `j` of the input arrays on all the ranks is slot `j'` of the others. -/
def SameInput {α β : Type} (src : List Box) (inplace : Nat → Bool) (m0s : List (Mem α β)) (j : Nat) (inplace' : Nat → Bool) (m0s' : List (Mem α β)) (j' : Nat) : Prop :=
  ∀ (r : Nat) m m', m0s[r]? = some m → m0s'[r]? = some m' → SameSlot (boxAt src r).count (inputOf inplace r m) j (inputOf inplace' r m') j'

def SameOutput {α β : Type} (dst : List Box) (ms : List (Mem α β)) (j : Nat) (ms' : List (Mem α β)) (j' : Nat) : Prop :=
  ∀ (r : Nat) m m', ms[r]? = some m → ms'[r]? = some m' → SameSlot (boxAt dst r).count m.output j m'.output j'

theorem same_values {α β : Type} {src dst : List Box} {v : Box} {realIn realOut : Bool} {need need' : Nat → Int} {nb' : Nat} {inplace' : Nat → Bool}
    {m0s m0s' : List (Mem α β)} {G G' : Field α β} (ha : CallArrays src dst realIn realOut need nb inplace m0s G)
    (ha' : CallArrays src dst realIn realOut need' nb' inplace' m0s' G') (ht : Tiles src v) (ho : ∀ b ∈ src, IsOrder b.order)
    {j j' : Nat} (hj : j < nb) (hj' : j' < nb') (h : SameInput src inplace m0s j inplace' m0s' j') : ∀ p ∈ v, G.val j p = G'.val j' p := by
  intro p hp
  obtain ⟨b, hb, hpb⟩ := ht.exists_box hp
  obtain ⟨r, hr, rfl⟩ := List.getElem_of_mem hb
  have e : src[r] = boxAt src r := by
    have := boxAt_get hr
    rw [List.getElem?_eq_getElem hr] at this
    exact Option.some.inj this
  rw [e] at hpb hb
  have hm := List.getElem?_eq_getElem (l := m0s) (i := r) (by rw [ha.ranks]; exact hr)
  have hm' := List.getElem?_eq_getElem (l := m0s') (i := r) (by rw [ha'.ranks]; exact hr)
  have h1 := ha.start r _ hm j hj p hpb
  have h2 := ha'.start r _ hm' j' hj' p hpb
  have hof := Box.offset_range (ho _ hb) hpb
  have h3 := h r _ _ hm hm' _ hof.1 hof.2
  unfold inputOf at h3
  rw [Box.count_eq_card] at h3
  rw [h1, h2] at h3
  exact Option.some.inj h3

theorem src_tiles (geo : Geometry bin bout none wi wo) (fwd : Bool) : Tiles (srcBoxes fwd bin bout) wi := by
  cases fwd
  · exact dst_tiles geo true
  · exact dst_tiles geo false

/-- The transform of one entry of a batch depends on the values of this entry in the world only. -/
theorem dft3_congr {w : Box} {G G' : A3 Int → ℂ} (h : ∀ p ∈ w, G p = G' p) (fwd : Bool) : dft3 fwd w G = dft3 fwd w G' := by
  funext p
  unfold dft3
  exact Finset.sum_congr rfl fun q hq => by rw [h q (Box.mem_points.1 hq)]

/-- C41, C43: two objects for the same boxes with any options, two calls with complex data with batches of any sizes: if entry `j` of the
first input is entry `j'` of the second one, the same holds for the outputs.  The calls may differ in everything but the boxes,
the direction and the scaling: options, workspaces, in place or not, order of the messages, lanes. -/
theorem C41_C43_complex {opts' : Opts} {ob' : Object} (S : StockC2C bin bout wi wo opts ob) (S' : StockC2C bin bout wi wo opts' ob')
    {w' : Nat} (hw : 0 < w) (hw' : 0 < w') {junk' : Tag → Int × Int → Scratch} {inp' : Tag → Int × Int → Arr ℂ} {W' : World ℂ ℝ}
    (hW : WorldOk W ob.plan fwd) (hW' : WorldOk W' ob'.plan fwd) {nb' : Nat} {inplace' : Nat → Bool} {m0s' : List (Mem ℂ ℝ)}
    (ha : HasArrays (srcBoxes fwd bin bout) (dstBoxes fwd bin bout) false false (ob.sizeWorkspace noWork) nb inplace m0s)
    (ha' : HasArrays (srcBoxes fwd bin bout) (dstBoxes fwd bin bout) false false (ob'.sizeWorkspace noWork) nb' inplace' m0s')
    (hs : SourceHolds (srcBoxes fwd bin bout) inplace) (hs' : SourceHolds (srcBoxes fwd bin bout) inplace') (hnb : 0 < nb) (hnb' : 0 < nb') :
    ∃ ms ms', perform ob (stockKernel w junk inp) W .same fwd nb inplace s m0s = .ok ms ∧
      perform ob' (stockKernel w' junk' inp') W' .same fwd nb' inplace' s m0s' = .ok ms' ∧
      ∀ j j', j < nb → j' < nb' → SameInput (srcBoxes fwd bin bout) inplace m0s j inplace' m0s' j' → SameOutput (dstBoxes fwd bin bout) ms j ms' j' := by
  have ho := src_order S.geo fwd
  have ht := src_tiles S.geo fwd
  obtain ⟨G, hG, hc⟩ := ha.values ht ho (fun _ _ _ => rfl)
  obtain ⟨G', hG', hc'⟩ := ha'.values ht ho (fun _ _ _ => rfl)
  cases G with
  | inr g => cases hG
  | inl g =>
  cases G' with
  | inr g' => cases hG'
  | inl g' =>
  obtain ⟨ms, h1, h2⟩ := C40_complex (junk := junk) (inp := inp) (s := s) S hw hW hnb hc hs
  obtain ⟨ms', h1', h2'⟩ := C40_complex (junk := junk') (inp := inp') (s := s) S' hw' hW' hnb' hc' hs'
  refine ⟨ms, ms', h1, h1', fun j j' hj hj' hsame r m m' hm hm' a h0 ha1 => ?_⟩
  refine h2.entries h2' (dst_tiles S.geo fwd) (dst_order S.geo fwd) (by rw [hc.ranks, src_length S.geo, dst_length S.geo]) hj hj' (fun p hp => ?_) hm hm' h0 ha1
  have hval := same_values hc hc' ht ho hj hj' hsame
  simp only [Field.val] at hval ⊢
  rw [dft3_congr (fun q hq => Sum.inl_injective (hval q hq)) fwd]

/-- C41, C43: the same for the forward call of an `fft3d_r2c`; for batches with the guard of C53. -/
theorem C41_C43_r2c_forward {opts' : Opts} {ob' : Object} (S : StockR2C bin bout d wi wo opts ob) (S' : StockR2C bin bout d wi wo opts' ob')
    {w' : Nat} (hw : 0 < w) (hw' : 0 < w') {junk' : Tag → Int × Int → Scratch} {inp' : Tag → Int × Int → Arr ℂ} {W' : World ℂ ℝ}
    (hW : WorldOk W ob.plan true) (hW' : WorldOk W' ob'.plan true) {nb' : Nat} {m0s' : List (Mem ℂ ℝ)}
    (ha : HasArrays bin bout true false (ob.sizeWorkspace noWork) nb (fun _ => false) m0s)
    (ha' : HasArrays bin bout true false (ob'.sizeWorkspace noWork) nb' (fun _ => false) m0s')
    (hhalf : nb = 1 ∨ ReshapesAfter ob bin.length) (hhalf' : nb' = 1 ∨ ReshapesAfter ob' bin.length) (hnb : 0 < nb) (hnb' : 0 < nb') :
    ∃ ms ms', perform ob (stockKernel w junk inp) W .r2c true nb (fun _ => false) s m0s = .ok ms ∧
      perform ob' (stockKernel w' junk' inp') W' .r2c true nb' (fun _ => false) s m0s' = .ok ms' ∧
      ∀ j j', j < nb → j' < nb' → SameInput bin (fun _ => false) m0s j (fun _ => false) m0s' j' → SameOutput bout ms j ms' j' := by
  have ho := src_order S.geo true
  obtain ⟨G, hG, hc⟩ := ha.values S.geo.tilesIn ho (fun _ _ h => by cases h)
  obtain ⟨G', hG', hc'⟩ := ha'.values S.geo.tilesIn ho (fun _ _ h => by cases h)
  cases G with
  | inl g => cases hG
  | inr g =>
  cases G' with
  | inl g' => cases hG'
  | inr g' =>
  obtain ⟨ms, h1, h2⟩ := C53_forward (junk := junk) (inp := inp) (s := s) S hw hW hnb hc hhalf
  obtain ⟨ms', h1', h2'⟩ := C53_forward (junk := junk') (inp := inp') (s := s) S' hw' hW' hnb' hc' hhalf'
  refine ⟨ms, ms', h1, h1', fun j j' hj hj' hsame r m m' hm hm' a h0 ha1 => ?_⟩
  refine h2.entries h2' S.geo.tilesOut (dst_order S.geo true) (by rw [hc.ranks, S.geo.length]) hj hj' (fun p hp => ?_) hm hm' h0 ha1
  have hval := same_values hc hc' S.geo.tilesIn ho hj hj' hsame
  simp only [Field.val] at hval ⊢
  rw [dft3_congr (G' := fun q => (g' j' q : ℂ)) (fun q hq => by rw [Sum.inr_injective (hval q hq)]) true]

/-- C43 for the forward `fft3d_r2c`, what is true: entry `j` of a batch of size `nb` is the result of a call with this entry alone, if the
last reshape is not skipped.  Missing: batches above 1 without the last reshape, where the code is wrong (`C43_r2c_false`, `C43_r2c_wrong`). -/
theorem C43_r2c_forward_partial (S : StockR2C bin bout d wi wo opts ob) (hw : 0 < w) {W' : World ℂ ℝ}
    (hW : WorldOk W ob.plan true) (hW' : WorldOk W' ob.plan true) {m0s' : List (Mem ℂ ℝ)}
    (ha : HasArrays bin bout true false (ob.sizeWorkspace noWork) nb (fun _ => false) m0s)
    (ha' : HasArrays bin bout true false (ob.sizeWorkspace noWork) 1 (fun _ => false) m0s')
    (hhalf : nb = 1 ∨ ReshapesAfter ob bin.length) (hnb : 0 < nb) :
    ∃ ms ms', perform ob (stockKernel w junk inp) W .r2c true nb (fun _ => false) s m0s = .ok ms ∧
      perform ob (stockKernel w junk inp) W' .r2c true 1 (fun _ => false) s m0s' = .ok ms' ∧
      ∀ j, j < nb → SameInput bin (fun _ => false) m0s j (fun _ => false) m0s' 0 → SameOutput bout ms j ms' 0 := by
  obtain ⟨ms, ms', h1, h2, h3⟩ := C41_C43_r2c_forward (junk := junk) (inp := inp) (s := s) (junk' := junk) (inp' := inp) S S hw hw hW hW' ha ha' hhalf
    (.inl rfl) hnb Nat.one_pos
  exact ⟨ms, ms', h1, h2, fun j hj => h3 j 0 hj Nat.one_pos⟩

/-- The completed spectrum depends on the values in the complex world only. -/
theorem c2r3_congr (hc : ComplexWorld wi wo (some d)) {G G' : A3 Int → ℂ} (h : ∀ p ∈ wo, G p = G' p) {p : A3 Int} : c2r3 wi d G p = c2r3 wi d G' p := by
  unfold c2r3 dft3
  congr 1
  refine Finset.sum_congr rfl fun q hq => ?_
  have hq := Box.mem_points.1 hq
  congr 1
  have hin : ∀ q : A3 Int, q ∈ wi → wi.rel q d ≤ wi.extent d / 2 → q ∈ wo := by
    intro q hq hle
    rw [Box.mem_def] at hq ⊢
    intro e
    have h1 := hc e
    have h2 := hq e
    by_cases he : e = d
    · subst he
      rw [if_pos rfl] at h1
      unfold Box.rel Box.extent at hle
      omega
    · rw [if_neg (fun h => he (Option.some.inj h).symm)] at h1
      omega
  unfold fullSpectrum3
  split
  · rename_i hle
    rw [h q (hin q hq hle)]
  · rename_i hle
    have hm : mirror wi q ∈ wi ∧ wi.rel (mirror wi q) d ≤ wi.extent d / 2 := by
      rw [Box.mem_def] at hq
      refine ⟨?_, ?_⟩
      · rw [Box.mem_def]
        intro e
        have h2 := hq e
        unfold mirror
        rw [A3.get_of]
        have hpos : 0 < wi.extent e := by unfold Box.extent; omega
        have := Nat.mod_lt (wi.extent e - wi.rel q e) hpos
        unfold Box.extent at this ⊢
        omega
      · have h2 := hq d
        unfold mirror
        simp only [Box.rel, A3.get_of] at hle ⊢
        have hpos : 0 < wi.extent d := by unfold Box.extent; omega
        have := Nat.mod_le (wi.extent d - (q.get d - wi.low.get d).toNat) (wi.extent d)
        omega
    rw [h _ (hin _ hm.1 hm.2)]

/-- C41, C43: the same for the backward call of an `fft3d_r2c`; no guard on the batches. -/
theorem C41_C43_r2c_backward {opts' : Opts} {ob' : Object} (S : StockR2C bin bout d wi wo opts ob) (S' : StockR2C bin bout d wi wo opts' ob')
    {w' : Nat} (hw : 0 < w) (hw' : 0 < w') {junk' : Tag → Int × Int → Scratch} {inp' : Tag → Int × Int → Arr ℂ} {W' : World ℂ ℝ}
    (hW : WorldOk W ob.plan false) (hW' : WorldOk W' ob'.plan false) {nb' : Nat} {m0s' : List (Mem ℂ ℝ)}
    (ha : HasArrays bout bin false true (ob.sizeWorkspace noWork) nb (fun _ => false) m0s)
    (ha' : HasArrays bout bin false true (ob'.sizeWorkspace noWork) nb' (fun _ => false) m0s')
    (hs : SourceHolds bout fun _ => false) (hnb : 0 < nb) (hnb' : 0 < nb') :
    ∃ ms ms', perform ob (stockKernel w junk inp) W .c2r false nb (fun _ => false) s m0s = .ok ms ∧
      perform ob' (stockKernel w' junk' inp') W' .c2r false nb' (fun _ => false) s m0s' = .ok ms' ∧
      ∀ j j', j < nb → j' < nb' → SameInput bout (fun _ => false) m0s j (fun _ => false) m0s' j' → SameOutput bin ms j ms' j' := by
  have ho := src_order S.geo false
  obtain ⟨G, hG, hc⟩ := ha.values S.geo.tilesOut ho (fun _ _ h => by cases h)
  obtain ⟨G', hG', hc'⟩ := ha'.values S.geo.tilesOut ho (fun _ _ h => by cases h)
  cases G with
  | inr g => cases hG
  | inl g =>
  cases G' with
  | inr g' => cases hG'
  | inl g' =>
  obtain ⟨ms, h1, h2⟩ := C53_backward (junk := junk) (inp := inp) (s := s) S hw hW hnb hc hs
  obtain ⟨ms', h1', h2'⟩ := C53_backward (junk := junk') (inp := inp') (s := s) S' hw' hW' hnb' hc' hs
  refine ⟨ms, ms', h1, h1', fun j j' hj hj' hsame r m m' hm hm' a h0 ha1 => ?_⟩
  refine h2.entries h2' S.geo.tilesIn (dst_order S.geo false) (by rw [hc.ranks, S.geo.length]) hj hj' (fun p hp => ?_) hm hm' h0 ha1
  have hval := same_values hc hc' S.geo.tilesOut ho hj hj' hsame
  simp only [Field.val] at hval ⊢
  rw [c2r3_congr S.geo.complex (fun q hq => Sum.inl_injective (hval q hq))]

/-! ## C44: the workspace -/

/-- C44: with any contents of the arrays a workspace of `batch_size * size_workspace()` entries is enough: the call returns, it stays
inside of all the arrays and keeps the input. -/
theorem C44_complex (S : StockC2C bin bout wi wo opts ob) (hw : 0 < w) (hW : WorldOk W ob.plan fwd) (hnb : 0 < nb)
    (ha : HasArrays (srcBoxes fwd bin bout) (dstBoxes fwd bin bout) false false (ob.sizeWorkspace noWork) nb inplace m0s)
    (hs : SourceHolds (srcBoxes fwd bin bout) inplace) :
    ∃ ms, perform ob (stockKernel w junk inp) W .same fwd nb inplace s m0s = .ok ms ∧ ms.length = m0s.length ∧
      ∀ (r : Nat) m0 m, m0s[r]? = some m0 → ms[r]? = some m → m.input = m0.input ∧ m.output.size = m0.output.size ∧ m.work.length = m0.work.length := by
  obtain ⟨G, hG, hc⟩ := ha.values (src_tiles S.geo fwd) (src_order S.geo fwd) (fun _ _ _ => rfl)
  cases G with
  | inr g => cases hG
  | inl g =>
  obtain ⟨ms, h1, h2⟩ := C40_complex (junk := junk) (inp := inp) (s := s) S hw hW hnb hc hs
  exact ⟨ms, h1, h2.ranks, fun r m0 m e1 e2 => ⟨(h2.same r m0 m e1 e2).input, (h2.same r m0 m e1 e2).output.2, (h2.same r m0 m e1 e2).work⟩⟩

theorem C44_r2c (S : StockR2C bin bout d wi wo opts ob) (hw : 0 < w) (hW : WorldOk W ob.plan true) (hnb : 0 < nb)
    (ha : HasArrays bin bout true false (ob.sizeWorkspace noWork) nb (fun _ => false) m0s) (hhalf : nb = 1 ∨ ReshapesAfter ob bin.length) :
    ∃ ms, perform ob (stockKernel w junk inp) W .r2c true nb (fun _ => false) s m0s = .ok ms ∧ ms.length = m0s.length ∧
      ∀ (r : Nat) m0 m, m0s[r]? = some m0 → ms[r]? = some m → m.input = m0.input ∧ m.output.size = m0.output.size ∧ m.work.length = m0.work.length := by
  obtain ⟨G, hG, hc⟩ := ha.values S.geo.tilesIn (src_order S.geo true) (fun _ _ h => by cases h)
  cases G with
  | inl g => cases hG
  | inr g =>
  obtain ⟨ms, h1, h2⟩ := C53_forward (junk := junk) (inp := inp) (s := s) S hw hW hnb hc hhalf
  exact ⟨ms, h1, h2.ranks, fun r m0 m e1 e2 => ⟨(h2.same r m0 m e1 e2).input, (h2.same r m0 m e1 e2).output.2, (h2.same r m0 m e1 e2).work⟩⟩

theorem C44_c2r (S : StockR2C bin bout d wi wo opts ob) (hw : 0 < w) (hW : WorldOk W ob.plan false) (hnb : 0 < nb)
    (ha : HasArrays bout bin false true (ob.sizeWorkspace noWork) nb (fun _ => false) m0s) (hs : SourceHolds bout fun _ => false) :
    ∃ ms, perform ob (stockKernel w junk inp) W .c2r false nb (fun _ => false) s m0s = .ok ms ∧ ms.length = m0s.length ∧
      ∀ (r : Nat) m0 m, m0s[r]? = some m0 → ms[r]? = some m → m.input = m0.input ∧ m.output.size = m0.output.size ∧ m.work.length = m0.work.length := by
  obtain ⟨G, hG, hc⟩ := ha.values S.geo.tilesOut (src_order S.geo false) (fun _ _ h => by cases h)
  cases G with
  | inr g => cases hG
  | inl g =>
  obtain ⟨ms, h1, h2⟩ := C53_backward (junk := junk) (inp := inp) (s := s) S hw hW hnb hc hs
  exact ⟨ms, h1, h2.ranks, fun r m0 m e1 e2 => ⟨(h2.same r m0 m e1 e2).input, (h2.same r m0 m e1 e2).output.2, (h2.same r m0 m e1 e2).work⟩⟩

/-- C44: for executors with a workspace of their own (any sizes, any kinds): the communication buffers, the data and the workspace of the
executors are one behind the other inside of `size_workspace()` entries, for every batch size, and the data part has room for the box of every
executor (`complex_size()` of a real-to-complex one). -/
theorem C44_regions (ws : Executor → Int) (hws : ∀ e, 0 ≤ ws e) (f b : Fin 4 → Option Shaper) (e : A3 (Option Executor))
    (hsize : ∀ k x, e.get k = some x → 0 < x.boxSize ∧ 0 < x.complexSize) (halved : Bool) (nb : Nat) :
    let size := if halved then sizeWorkR2C ws f b e else sizeWorkC2C ws f b e
    let off := execOffset size (maxWorkSize ws e)
    (∀ i sh, f i = some sh ∨ b i = some sh → nb * sh.sizeWorkspace ≤ nb * commSize f b) ∧
    (∀ x, e.x = some x → nb * (commSize f b + if halved then x.complexSize else x.boxSize) ≤ nb * (size - maxWorkSize ws e)) ∧
    (∀ x, e.y = some x ∨ e.z = some x → nb * (commSize f b + x.boxSize) ≤ nb * (size - maxWorkSize ws e)) ∧
    ((∃ k x, e.get k = some x ∧ 0 < ws x) → off ≠ 0 ∧ off = size - maxWorkSize ws e ∧
      ∀ k x, e.get k = some x → 0 < nb → nb * off + ws x ≤ nb * size) := by
  intro size off
  have hnb : (0 : Int) ≤ nb := Int.natCast_nonneg _
  have hmx : ∀ k x, e.get k = some x → ws x ≤ maxWorkSize ws e := by
    intro k x hx
    unfold maxWorkSize
    fin_cases k
    · rw [show e.x = some x from hx]; exact le_trans (le_max_left _ _) (le_max_left _ _)
    · rw [show e.y = some x from hx]; exact le_trans (le_max_right _ _) (le_max_left _ _)
    · rw [show e.z = some x from hx]; exact le_max_right _ _
  have hbox : ∀ k x, e.get k = some x → x.boxSize ≤ maxBoxSize e := by
    intro k x hx
    unfold maxBoxSize
    fin_cases k
    · rw [show e.x = some x from hx]; exact le_trans (le_max_left _ _) (le_max_left _ _)
    · rw [show e.y = some x from hx]; exact le_trans (le_max_right _ _) (le_max_left _ _)
    · rw [show e.z = some x from hx]; exact le_max_right _ _
  have hboxR : ∀ x, e.y = some x ∨ e.z = some x → x.boxSize ≤ maxBoxSizeR2C e := by
    intro x hx
    unfold maxBoxSizeR2C
    rcases hx with hx | hx
    · rw [hx]; exact le_trans (le_max_right _ _) (le_max_left _ _)
    · rw [hx]; exact le_max_right _ _
  have hge : commSize f b + (if halved then maxBoxSizeR2C e else maxBoxSize e) + maxWorkSize ws e ≤ size := by
    simp only [size]
    cases halved
    · exact sizeWorkC2C_ge hws
    · exact sizeWorkR2C_ge
  refine ⟨?_, ?_, ?_, ?_⟩
  · rintro i sh (h | h)
    · exact mul_le_mul_of_nonneg_left (le_commSize_fwd h) hnb
    · exact mul_le_mul_of_nonneg_left (le_commSize_bwd h) hnb
  · intro x hx
    refine mul_le_mul_of_nonneg_left ?_ hnb
    cases halved
    · have := hbox 0 x hx
      simp only [if_false, Bool.false_eq_true] at hge ⊢
      omega
    · have : x.complexSize ≤ maxBoxSizeR2C e := by
        unfold maxBoxSizeR2C
        rw [hx]; exact le_trans (le_max_left _ _) (le_max_left _ _)
      simp only [if_true] at hge ⊢
      omega
  · intro x hx
    refine mul_le_mul_of_nonneg_left ?_ hnb
    cases halved
    · have : x.boxSize ≤ maxBoxSize e := by
        rcases hx with hx | hx
        · exact hbox 1 x hx
        · exact hbox 2 x hx
      simp only [if_false, Bool.false_eq_true] at hge
      omega
    · have := hboxR x hx
      simp only [if_true] at hge
      omega
  · rintro ⟨k, x, hx, hpos⟩
    have hm := hmx k x hx
    have hne : maxWorkSize ws e ≠ 0 := by omega
    have hoff : off = size - maxWorkSize ws e := by simp only [off, execOffset]; rw [if_neg hne]
    have hlow : 0 < size - maxWorkSize ws e := by
      have hc := commSize_nonneg f b
      have h1 : 0 < (if halved then maxBoxSizeR2C e else maxBoxSize e) := by
        have h0 := hsize k x hx
        cases halved
        · exact lt_of_lt_of_le h0.1 (hbox k x hx)
        · simp only [if_true]
          match k, hx with
          | 0, hx => exact lt_of_lt_of_le h0.2 (by unfold maxBoxSizeR2C; rw [show e.x = some x from hx]; exact le_trans (le_max_left _ _) (le_max_left _ _))
          | 1, hx => exact lt_of_lt_of_le h0.1 (hboxR x (.inl hx))
          | 2, hx => exact lt_of_lt_of_le h0.1 (hboxR x (.inr hx))
      omega
    refine ⟨by omega, hoff, fun k' x' hx' hb => ?_⟩
    have := hmx k' x' hx'
    rw [hoff, mul_sub]
    have h2 : maxWorkSize ws e ≤ nb * maxWorkSize ws e := by
      have : (1 : Int) ≤ nb := by omega
      nlinarith [maxWorkSize_nonneg hws e]
    omega

end

/-! ## The objects exist -/

/-- C54: the constructor of a Fourier transform returns an object whenever the planner returns a plan. -/
theorem C54_object {bin bout : List Box} {wi wo : Box} (geo : Geometry bin bout none wi wo) (bk : Backend) (hbk : ∀ z, bk.family ≠ .stock z)
    {opts : Opts} {p : Plan} (h : planOperations bin bout none opts = .ok p) : ∃ ob, makeFft3d bk bin bout opts = .ok ob ∧ ob.plan = p := by
  have hf := planFacts geo (fun h => absurd rfl h) h
  obtain ⟨o, h1, h2⟩ := setupC2C_ok hf bk opts.algorithm
  obtain ⟨l, l1, -⟩ := mapRes_ok (f := fun _ e => workOfRank e) (P := fun _ _ _ => True) o.execs 0 (by
    intro r e he
    have hr : r < bin.length := by
      have := (List.getElem?_eq_some_iff.1 he).1
      rwa [h2.lenExecs] at this
    rw [h2.execs r hr] at he
    obtain rfl := Option.some.inj he
    exact ⟨0, workOfRank_same hbk _ _ _ _ _ _, trivial⟩)
  refine ⟨⟨p, o, false, bk.family⟩, ?_, rfl⟩
  unfold makeFft3d
  rw [setOptions_same hbk]
  simp only [bind, Except.bind]
  rw [h]
  simp only
  rw [h1]
  simp only
  rw [l1]

theorem C54_object_r2c {bin bout : List Box} {wi wo : Box} {d : Fin 3} (geo : Geometry bin bout (some d) wi wo) (hz : RankZeroHolds bin)
    (hc : ∀ b ∈ bin, b.count < 2 ^ 31) {opts : Opts} {p : Plan}
    (h : planOperations bin bout (some d) opts = .ok p) : ∃ ob, makeFft3dR2C bin bout d opts = .ok ob ∧ ob.plan = p := by
  obtain ⟨o, h1, -⟩ := setupR2C_ok (planFacts geo (fun _ => ⟨hz, hc⟩) h) opts.algorithm
  refine ⟨⟨p, o, true, .fourier⟩, ?_, rfl⟩
  unfold makeFft3dR2C
  simp only [bind, Except.bind]
  rw [h]
  simp only
  rw [h1]

/-- C54: for fewer than 2^31 indexes and at least as many indexes as ranks in each direction the constructor returns an object, with any
options. -/
theorem C54_constructor {bin bout : List Box} {wi wo : Box} (geo : Geometry bin bout none wi wo) (hsmall : wi.count < 2 ^ 31)
    (hlong : ∀ d, (bin.length : Int) ≤ wi.size.get d ∧ (bin.length : Int) ≤ wo.size.get d) (bk : Backend)
    (hbk : ∀ z, bk.family ≠ .stock z) (opts : Opts) : ∃ ob, makeFft3d bk bin bout opts = .ok ob := by
  obtain ⟨p, hp⟩ := (C14_planner_defined (opts := opts) geo hsmall).2 hlong
  obtain ⟨ob, h, -⟩ := C54_object geo bk hbk hp
  exact ⟨ob, h⟩

theorem C54_constructor_r2c {bin bout : List Box} {wi wo : Box} {d : Fin 3} (geo : Geometry bin bout (some d) wi wo) (hz : RankZeroHolds bin)
    (hc : ∀ b ∈ bin, b.count < 2 ^ 31) (hsmall : wi.count < 2 ^ 31)
    (hlong : ∀ d, (bin.length : Int) ≤ wi.size.get d ∧ (bin.length : Int) ≤ wo.size.get d) (opts : Opts) :
    ∃ ob, makeFft3dR2C bin bout d opts = .ok ob := by
  obtain ⟨p, hp⟩ := (C14_planner_defined (opts := opts) geo hsmall).2 hlong
  obtain ⟨ob, h, -⟩ := C54_object_r2c geo hz hc hp
  exact ⟨ob, h⟩

/-! ## Examples: four ranks, 4 x 6 x 8 indexes, two storage orders, any options -/

theorem exObject (opts : Opts) : ∃ wi wo ob, StockC2C exIn exOut wi wo opts ob := by
  obtain ⟨wi, wo, h, -⟩ := exGeometry
  have h1 : findWorld exIn = .ok ⟨⟨0, 0, 0⟩, ⟨3, 5, 7⟩, ⟨0, 1, 2⟩⟩ := by decide
  have h2 : findWorld exOut = .ok ⟨⟨0, 0, 0⟩, ⟨3, 5, 7⟩, ⟨0, 1, 2⟩⟩ := by decide
  obtain rfl := Except.ok.inj (h1.symm.trans h.worldIn)
  obtain rfl := Except.ok.inj (h2.symm.trans h.worldOut)
  obtain ⟨ob, hob⟩ := C54_constructor h (by decide) (by decide) .stock (fun z h => Family.noConfusion h) opts
  refine ⟨_, _, ob, h, hob, fun d => goodLength_small ?_ ?_⟩ <;> revert d <;> decide

theorem exObjectC (opts : Opts) : ∃ wi wo ob, StockR2C exIn exOutC 1 wi wo opts ob := by
  obtain ⟨wi, wo, h, -⟩ := exGeometryC
  have h1 : findWorld exIn = .ok ⟨⟨0, 0, 0⟩, ⟨3, 5, 7⟩, ⟨0, 1, 2⟩⟩ := by decide
  have h2 : findWorld exOutC = .ok ⟨⟨0, 0, 0⟩, ⟨3, 3, 7⟩, ⟨0, 1, 2⟩⟩ := by decide
  obtain rfl := Except.ok.inj (h1.symm.trans h.worldIn)
  obtain rfl := Except.ok.inj (h2.symm.trans h.worldOut)
  have hz : RankZeroHolds exIn := fun b hb => by obtain rfl := Option.some.inj hb; exact ⟨⟨0, 0, 0⟩, by decide⟩
  have hc : ∀ b ∈ exIn, b.count < 2 ^ 31 := by decide
  obtain ⟨ob, hob⟩ := C54_constructor_r2c h hz hc (by decide) (by decide) opts
  refine ⟨_, _, ob, h, hob, fun d => goodLength_small ?_ ?_, hz, hc⟩ <;> revert d <;> decide

theorem exSource : ∀ l ∈ [exIn, exOut, exOutC], SourceHolds l fun _ => false := by
  have key : ∀ l ∈ [exIn, exOut, exOutC], ∀ r, r < l.length → (boxAt l r).low ∈ boxAt l r := by decide
  exact fun l hl r hr => .inr ⟨_, key l hl r hr⟩

/-- The arrays for the second of two calls: the two arrays of the first one in the other order. -/
theorem swapped_arrays {α β : Type} {src dst : List Box} {realIn realOut : Bool} {need : Nat → Int} {nb : Nat} {m0s ms : List (Mem α β)} {F : Field α β}
    (hl : src.length = dst.length) (ha : HasArrays src dst realIn realOut need nb (fun _ => false) m0s) (ho : Outcome dst nb m0s ms F) :
    HasArrays dst src realOut realIn need nb (fun _ => false) (ms.map fun m => ⟨m.output, m.input, m.work⟩) ∧
      Continues (fun _ => false) ms (ms.map fun m => ⟨m.output, m.input, m.work⟩) := by
  have key : ∀ (r : Nat) m1, (ms.map fun m => (⟨m.output, m.input, m.work⟩ : Mem α β))[r]? = some m1 →
      ∃ m0 m, m0s[r]? = some m0 ∧ ms[r]? = some m ∧ m1 = ⟨m.output, m.input, m.work⟩ ∧ Stays m0 m := by
    intro r m1 h
    rw [List.getElem?_map] at h
    obtain ⟨m, hm, rfl⟩ := Option.map_eq_some_iff.1 h
    have hr : r < m0s.length := ho.ranks ▸ (List.getElem?_eq_some_iff.1 hm).1
    exact ⟨m0s[r], m, List.getElem?_eq_getElem hr, hm, rfl, ho.same r _ _ (List.getElem?_eq_getElem hr) hm⟩
  refine ⟨⟨?_, ?_, ?_, ?_, ?_, ?_⟩, ?_⟩
  · rw [List.length_map, ho.ranks, ha.ranks, hl]
  · intro r m1 h
    obtain ⟨m0, m, h0, -, rfl, hs⟩ := key r m1 h
    exact hs.output.1.trans (ha.output r m0 h0)
  · intro r m1 h
    obtain ⟨m0, m, h0, -, rfl, hs⟩ := key r m1 h
    show m.input.isReal = _
    rw [hs.input]
    exact ha.input r m0 h0
  · intro r m1 h
    obtain ⟨m0, m, h0, -, rfl, hs⟩ := key r m1 h
    exact (ha.outputSize r m0 h0).trans (le_of_eq hs.output.2.symm)
  · intro r m1 h
    obtain ⟨m0, m, h0, -, rfl, hs⟩ := key r m1 h
    show _ ≤ m.input.size
    rw [hs.input]
    exact ha.inputSize r m0 h0
  · intro r m1 h
    obtain ⟨m0, m, h0, -, rfl, hs⟩ := key r m1 h
    exact (ha.work r m0 h0).trans (le_of_eq (by exact_mod_cast hs.work.symm))
  · intro r m m1 hm h
    obtain ⟨m0, m', h0, hm', rfl, hs⟩ := key r m1 h
    obtain rfl := Option.some.inj (hm.symm.trans hm')
    rfl

theorem swap_arrays {α β : Type} {src dst : List Box} {realIn realOut : Bool} {need : Nat → Int} {nb : Nat} {m0s ms : List (Mem α β)} {F : Field α β}
    (hl : src.length = dst.length) (ha : HasArrays src dst realIn realOut need nb (fun _ => false) m0s) (ho : Outcome dst nb m0s ms F) :
    ∃ m1s, HasArrays dst src realOut realIn need nb (fun _ => false) m1s ∧ Continues (fun _ => false) ms m1s :=
  ⟨_, swapped_arrays hl ha ho⟩

/-- C40, C52, C41, C43, C44: all the hypotheses can be met, for any values `g` and any batch. -/
example (opts : Opts) (fwd : Bool) (nb : Nat) (g : Nat → A3 Int → ℂ) :
    ∃ wi wo ob, ∃ (W : World ℂ ℝ) (m0s : List (Mem ℂ ℝ)), StockC2C exIn exOut wi wo opts ob ∧ WorldOk W ob.plan fwd ∧
      SourceHolds (srcBoxes fwd exIn exOut) (fun _ => false) ∧
      CallArrays (srcBoxes fwd exIn exOut) (dstBoxes fwd exIn exOut) false false (ob.sizeWorkspace noWork) nb (fun _ => false) m0s (.inl g) := by
  obtain ⟨wi, wo, ob, S⟩ := exObject opts
  obtain ⟨W, hW⟩ := world_exists ob.plan fwd
  obtain ⟨m0s, h⟩ := arrays_exist (srcBoxes fwd exIn exOut) (dstBoxes fwd exIn exOut) false (ob.sizeWorkspace noWork) nb (.inl g : Field ℂ ℝ) (src_order S.geo fwd)
  refine ⟨wi, wo, ob, W, m0s, S, hW, ?_, h⟩
  cases fwd <;> exact exSource _ (by simp [srcBoxes])

/-- C40 with real data, C53, C44: the same for an `fft3d_r2c`. -/
example (opts : Opts) (nb : Nat) (g : Nat → A3 Int → ℝ) :
    ∃ wi wo ob, ∃ (W : World ℂ ℝ) (m0s : List (Mem ℂ ℝ)), StockR2C exIn exOutC 1 wi wo opts ob ∧ WorldOk W ob.plan true ∧
      CallArrays exIn exOutC true false (ob.sizeWorkspace noWork) nb (fun _ => false) m0s (.inr g) := by
  obtain ⟨wi, wo, ob, S⟩ := exObjectC opts
  obtain ⟨W, hW⟩ := world_exists ob.plan true
  obtain ⟨m0s, h⟩ := arrays_exist exIn exOutC false (ob.sizeWorkspace noWork) nb (.inr g : Field ℂ ℝ) (src_order S.geo true)
  exact ⟨wi, wo, ob, W, m0s, S, hW, h⟩

/-- C38: two calls, the second one on the output of the first one. -/
example (opts : Opts) (g : Nat → A3 Int → ℂ) :
    ∃ ob, ∃ (W W' : World ℂ ℝ) (m0s ms m1s ms' : List (Mem ℂ ℝ)), Continues (fun _ => false) ms m1s ∧
      perform ob (stockKernel 4 (fun _ _ => ⟨fun _ => 0, fun _ _ => 0⟩) (fun _ _ _ => 0)) W .same true 2 (fun _ => false) .none m0s = .ok ms ∧
      perform ob (stockKernel 4 (fun _ _ => ⟨fun _ => 0, fun _ _ => 0⟩) (fun _ _ _ => 0)) W' .same false 2 (fun _ => false) .full m1s = .ok ms' ∧
      Outcome exIn 2 m1s ms' (.inl g) := by
  obtain ⟨wi, wo, ob, S⟩ := exObject opts
  obtain ⟨W, hW⟩ := world_exists ob.plan true
  obtain ⟨W', hW'⟩ := world_exists ob.plan false
  obtain ⟨m0s, h⟩ := arrays_exist exIn exOut false (ob.sizeWorkspace noWork) 2 (.inl g : Field ℂ ℝ) (src_order S.geo true)
  have hs : SourceHolds exIn fun _ => false := exSource _ (by simp)
  have hs' : SourceHolds exOut fun _ => false := exSource _ (by simp)
  obtain ⟨ms, h1, h2⟩ := C40_complex (junk := fun _ _ => ⟨fun _ => 0, fun _ _ => 0⟩) (inp := fun _ _ _ => 0) (s := .none) S (by decide : 0 < 4) hW (by decide : 0 < 2) h hs
  obtain ⟨m1s, h3, h4⟩ := swap_arrays (src := exIn) (dst := exOut) rfl h.has h2
  obtain ⟨ms2, h5, h6⟩ := C38_complex (junk := fun _ _ => ⟨fun _ => 0, fun _ _ => 0⟩) (inp := fun _ _ _ => 0) (s := .none) (s' := .full) S (by decide : 0 < 4)
    hW hW' (by decide : 0 < 2) h hs hs'
  obtain rfl := Except.ok.inj (h1.symm.trans h5)
  obtain ⟨ms', h7, -, h8⟩ := h6 m1s h3 h4
  exact ⟨ob, W, W', m0s, ms, m1s, ms', h4, h1, h7, h8 (.inr (.inl ⟨rfl, rfl⟩))⟩

end Verif
