import Verif.Tails
import Verif.Props.Wave

/-!
# The calls write into the documented part of the output only (C84)

The user may give longer arrays than asked for, for example one big allocation with several arrays in it.
-/

namespace Verif
open Stock

/-! ## Specification -/

/-- How many entries of the output array a call may change: the output boxes of the batch, in place also the input boxes. -/
def writable (src dst : List Box) (nb : Nat) (inplace : Bool) (r : Nat) : Nat :=
  if inplace then nb * max (boxAt src r).points.card (boxAt dst r).points.card else nb * (boxAt dst r).points.card

/-- No other entry of the output array is changed, and no entry of the input array. -/
def Untouched {α β : Type} (src dst : List Box) (nb : Nat) (inplace : Nat → Bool) (m0s ms : List (Mem α β)) : Prop :=
  ∀ (r : Nat) m0 m, m0s[r]? = some m0 → ms[r]? = some m →
    m.input = m0.input ∧ ∀ a : Int, (writable src dst nb (inplace r) r : Int) ≤ a → m.output.rd a = m0.output.rd a

/-! ## Cutting the arrays to the documented size -/

section
variable {α β : Type}

def Data.cut (n : Nat) : Data α β → Data α β
  | .inl l => .inl (l.take n)
  | .inr l => .inr (l.take n)

def Data.rest (n : Nat) : Data α β → Tail α β
  | .inl l => (l.drop n, [])
  | .inr l => ([], l.drop n)

theorem Data.cut_more (n : Nat) (x : Data α β) : (x.cut n).more (x.rest n) = x := by
  cases x <;> simp [Data.cut, Data.rest, Data.more]

theorem Data.cut_size {n : Nat} {x : Data α β} (h : n ≤ x.size) : (x.cut n).size = n := by
  cases x <;> simp [Data.cut, Data.size] at h ⊢ <;> exact h

theorem Data.cut_isReal (n : Nat) (x : Data α β) : (x.cut n).isReal = x.isReal := by cases x <;> rfl

theorem Data.cut_rd {n : Nat} (x : Data α β) {a : Int} (h : a < n) : (x.cut n).rd a = x.rd a := by
  cases x <;> simp only [Data.cut, Data.rd, rd_take h]

theorem rd_behind {γ : Type} {l t : List γ} {a : Int} (h : (l.length : Int) ≤ a) : rd (l ++ t) a = rd t (a - l.length) := by
  unfold rd
  rw [if_pos (by omega), if_pos (by omega), List.getElem?_append_right (by omega)]
  congr 1
  omega

theorem Data.more_rd {x y : Data α β} (h : Alike x y) (t : Tail α β) {a : Int} (ha : (y.size : Int) ≤ a) : (x.more t).rd a = (y.more t).rd a := by
  obtain ⟨h1, h2⟩ := h
  cases x <;> cases y <;> simp [Data.isReal] at h1 <;> simp only [Data.size] at h2 ha <;> simp only [Data.more, Data.rd] <;>
    rw [rd_behind (by omega), rd_behind (by omega), h2]

/-- What a call does with the documented sizes it does with longer arrays, and the entries behind stay. -/
theorem untouched_of {K : Kernel α β} (hK : TrigLocal K) {f : ℝ → α → α} {g : ℝ → β → β} {W : World α β} {mode : Mode} {ob : Object} {fwd : Bool} {nb : Nat}
    {inplace : Nat → Bool} {s : Scaling} {src dst : List Box} {realIn realOut : Bool} {need : Nat → Int} {G F : Field α β}
    (hord : ∀ b ∈ src, IsOrder b.order)
    (H : ∀ m0s, CallArrays src dst realIn realOut need nb inplace m0s G →
      ∃ ms, ob.call K f g W mode fwd nb inplace s m0s = .ok ms ∧ Outcome dst nb m0s ms F)
    {m0s : List (Mem α β)} (ha : CallArrays src dst realIn realOut need nb inplace m0s G) :
    ∃ ms, ob.call K f g W mode fwd nb inplace s m0s = .ok ms ∧ Outcome dst nb m0s ms F ∧ Untouched src dst nb inplace m0s ms := by
  obtain ⟨ms, h1, h2⟩ := H m0s ha
  refine ⟨ms, h1, h2, ?_⟩
  set n := fun r => writable src dst nb (inplace r) r with hn
  have hsize : ∀ (r : Nat) m0, m0s[r]? = some m0 → n r ≤ m0.output.size := by
    intro r m0 h
    have a1 := ha.inputSize r m0 h
    have a2 := ha.outputSize r m0 h
    simp only [n, writable]
    cases hi : inplace r with
    | false => simpa using a2
    | true =>
      rw [hi, if_pos rfl] at a1
      rw [if_pos rfl]
      rcases Nat.le_total (boxAt src r).points.card (boxAt dst r).points.card with h' | h'
      · rw [max_eq_right h']; exact a2
      · rw [max_eq_left h']; exact a1
  let short := m0s.mapIdx fun r (m : Mem α β) => (⟨m.input, m.output.cut (n r), m.work⟩ : Mem α β)
  have hshort : ∀ (r : Nat) m, short[r]? = some m → ∃ m0, m0s[r]? = some m0 ∧ m = ⟨m0.input, m0.output.cut (n r), m0.work⟩ := by
    intro r m h
    rw [List.getElem?_mapIdx, Option.map_eq_some_iff] at h
    obtain ⟨m0, h, e⟩ := h
    exact ⟨m0, h, e.symm⟩
  have hcall : CallArrays src dst realIn realOut need nb inplace short G := by
    refine ⟨by rw [List.length_mapIdx]; exact ha.ranks, ?_, ?_, ?_, ?_, ?_, ?_⟩
    · intro r m hm
      obtain ⟨m0, h, rfl⟩ := hshort r m hm
      exact ha.input r m0 h
    · intro r m hm
      obtain ⟨m0, h, rfl⟩ := hshort r m hm
      exact (Data.cut_isReal _ _).trans (ha.output r m0 h)
    · intro r m hm
      obtain ⟨m0, h, rfl⟩ := hshort r m hm
      have a1 := ha.inputSize r m0 h
      cases hi : inplace r with
      | false => rw [hi] at a1; exact a1
      | true =>
        rw [if_pos rfl]
        show nb * _ ≤ (m0.output.cut (n r)).size
        rw [Data.cut_size (hsize r m0 h)]
        simp only [n, writable, hi, if_true]
        exact Nat.mul_le_mul_left _ (le_max_left _ _)
    · intro r m hm
      obtain ⟨m0, h, rfl⟩ := hshort r m hm
      show nb * _ ≤ (m0.output.cut (n r)).size
      rw [Data.cut_size (hsize r m0 h)]
      simp only [n, writable]
      split
      · exact Nat.mul_le_mul_left _ (le_max_right _ _)
      · exact le_rfl
    · intro r m hm j hj
      obtain ⟨m0, h, rfl⟩ := hshort r m hm
      have a1 := ha.start r m0 h j hj
      cases hi : inplace r with
      | false => rw [hi] at a1; exact a1
      | true =>
        rw [hi, if_pos rfl] at a1
        rw [if_pos rfl]
        intro p hp
        have hr : r < src.length := by
          rw [← ha.ranks]
          exact (List.getElem?_eq_some_iff.1 h).1
        have ho : IsOrder (boxAt src r).order := hord _ (List.mem_of_getElem? (boxAt_get hr))
        have hb := Box.offset_range ho hp
        rw [Box.count_eq_card] at hb
        show (m0.output.cut (n r)).rd _ = _
        rw [Data.cut_rd _ ?_, a1 p hp]
        have e1 : (j + 1) * (boxAt src r).points.card ≤ nb * max (boxAt src r).points.card (boxAt dst r).points.card :=
          Nat.mul_le_mul (by omega) (le_max_left _ _)
        have e2 : n r = nb * max (boxAt src r).points.card (boxAt dst r).points.card := by simp only [n, writable, hi, if_true]
        rw [e2]
        have e3 : (j + 1) * (boxAt src r).points.card = j * (boxAt src r).points.card + (boxAt src r).points.card := by ring
        rw [e3] at e1
        have e4 : ((j * (boxAt src r).points.card + (boxAt src r).points.card : Nat) : Int) ≤
            (nb * max (boxAt src r).points.card (boxAt dst r).points.card : Nat) := Int.ofNat_le.2 e1
        push_cast at e4 ⊢
        omega
    · intro r m hm
      obtain ⟨m0, h, rfl⟩ := hshort r m hm
      exact ha.work r m0 h
  obtain ⟨ms0, h3, h4⟩ := H short hcall
  let t : Nat → Tails α β := fun r => match m0s[r]? with
    | some m0 => (([], []), m0.output.rest (n r))
    | none => (([], []), ([], []))
  have hal : Aligned (MoreMem t) short m0s := by
    refine ⟨by rw [List.length_mapIdx], fun r m m0 h h' => ?_⟩
    obtain ⟨m1, h5, rfl⟩ := hshort r m h
    rw [h'] at h5
    obtain rfl := Option.some.inj h5
    simp only [MoreMem, t, h', Mem.more, Data.more_nil, Data.cut_more]
  obtain ⟨ms', h5, h6⟩ := call_more hK f g W mode ob fwd nb inplace s t hal ms0 h3
  rw [h1] at h5
  obtain rfl := Except.ok.inj h5
  intro r m0 m hm0 hm
  refine ⟨(h2.same r m0 m hm0 hm).input, fun a hle => ?_⟩
  have hr : r < ms0.length := by
    rw [← h6.1]
    exact (List.getElem?_eq_some_iff.1 hm).1
  have g1 := List.getElem?_eq_getElem hr
  have g2 : short[r]? = some ⟨m0.input, m0.output.cut (n r), m0.work⟩ := by
    rw [List.getElem?_mapIdx, hm0]
    rfl
  have e := h6.2 r _ _ g1 hm
  have st := (h4.same r _ _ g2 g1).output
  simp only [MoreMem, t, hm0, Mem.more] at e
  rw [e]
  have hc := Data.cut_size (hsize r m0 hm0)
  rw [Data.more_rd st _ (by show ((m0.output.cut (n r)).size : Int) ≤ a; rw [hc]; exact hle)]
  show ((m0.output.cut (n r)).more (m0.output.rest (n r))).rd a = _
  rw [Data.cut_more]

end

/-! ## The calls of the stock backend -/

theorem stock_local {w : Nat} {junk : Tag → Int × Int → Scratch} {inp : Tag → Int × Int → Arr ℂ} : TrigLocal (stockKernel w junk inp) :=
  fun _ _ _ _ _ _ _ _ => Follows.error

section
variable {bin bout : List Box} {wi wo : Box} {opts : Opts} {ob : Object} {d : Fin 3} {w : Nat} {junk : Tag → Int × Int → Scratch}
  {inp : Tag → Int × Int → Arr ℂ} {W : World ℂ ℝ} {fwd : Bool} {nb : Nat} {inplace : Nat → Bool} {s : Scaling} {m0s : List (Mem ℂ ℝ)}

/-- C84: the calls with complex data return the transform and change no entry behind the documented size. -/
theorem C84_complex (S : StockC2C bin bout wi wo opts ob) (hw : 0 < w) (hW : WorldOk W ob.plan fwd) (hnb : 0 < nb) {g : Nat → A3 Int → ℂ}
    (ha : CallArrays (srcBoxes fwd bin bout) (dstBoxes fwd bin bout) false false (ob.sizeWorkspace noWork) nb inplace m0s (.inl g))
    (hs : SourceHolds (srcBoxes fwd bin bout) inplace) :
    ∃ ms, perform ob (stockKernel w junk inp) W .same fwd nb inplace s m0s = .ok ms ∧
      Outcome (dstBoxes fwd bin bout) nb m0s ms (.inl fun j p => (s.factor wi.count : ℂ) * dft3 fwd wi (g j) p) ∧
      Untouched (srcBoxes fwd bin bout) (dstBoxes fwd bin bout) nb inplace m0s ms :=
  untouched_of stock_local (src_order S.geo fwd) (fun _ ha => C40_complex S hw hW hnb ha hs) ha

/-- C84: the call of an `fft3d` with real input. -/
theorem C84_real (S : StockC2C bin bout wi wo opts ob) (hw : 0 < w) (hW : WorldOk W ob.plan true) (hnb : 0 < nb) {g : Nat → A3 Int → ℝ}
    (ha : CallArrays bin bout true false (ob.sizeWorkspace noWork) nb (fun _ => false) m0s (.inr g)) :
    ∃ ms, perform ob (stockKernel w junk inp) W .r2c true nb (fun _ => false) s m0s = .ok ms ∧
      Outcome bout nb m0s ms (.inl fun j p => (s.factor wi.count : ℂ) * dft3 true wi (fun q => (g j q : ℂ)) p) ∧
      Untouched bin bout nb (fun _ => false) m0s ms :=
  untouched_of stock_local (src_order S.geo true) (fun _ ha => C40_real S hw hW hnb ha) ha

/-- C84: the call of an `fft3d` with real output. -/
theorem C84_backward_real (S : StockC2C bin bout wi wo opts ob) (hw : 0 < w) (hW : WorldOk W ob.plan false) (hnb : 0 < nb) {g : Nat → A3 Int → ℂ}
    (ha : CallArrays bout bin false true (ob.sizeWorkspace noWork) nb (fun _ => false) m0s (.inl g)) (hs : SourceHolds bout fun _ => false) :
    ∃ ms, perform ob (stockKernel w junk inp) W .c2r false nb (fun _ => false) s m0s = .ok ms ∧
      Outcome bin nb m0s ms (.inr fun j p => s.factor wi.count * (dft3 false wi (g j) p).re) ∧
      Untouched bout bin nb (fun _ => false) m0s ms :=
  untouched_of stock_local (src_order S.geo false) (fun _ ha => C52_real S hw hW hnb ha hs) ha

/-- C84: the forward call of an `fft3d_r2c`. -/
theorem C84_r2c_forward (S : StockR2C bin bout d wi wo opts ob) (hw : 0 < w) (hW : WorldOk W ob.plan true) (hnb : 0 < nb) {g : Nat → A3 Int → ℝ}
    (ha : CallArrays bin bout true false (ob.sizeWorkspace noWork) nb (fun _ => false) m0s (.inr g))
    (hhalf : nb = 1 ∨ ReshapesAfter ob bin.length) :
    ∃ ms, perform ob (stockKernel w junk inp) W .r2c true nb (fun _ => false) s m0s = .ok ms ∧
      Outcome bout nb m0s ms (.inl fun j p => (s.factor wi.count : ℂ) * dft3 true wi (fun q => (g j q : ℂ)) p) ∧
      Untouched bin bout nb (fun _ => false) m0s ms :=
  untouched_of stock_local (src_order S.geo true) (fun _ ha => C53_forward S hw hW hnb ha hhalf) ha

/-- C84: the backward call of an `fft3d_r2c`. -/
theorem C84_r2c_backward (S : StockR2C bin bout d wi wo opts ob) (hw : 0 < w) (hW : WorldOk W ob.plan false) (hnb : 0 < nb) {g : Nat → A3 Int → ℂ}
    (ha : CallArrays bout bin false true (ob.sizeWorkspace noWork) nb (fun _ => false) m0s (.inl g)) (hs : SourceHolds bout fun _ => false) :
    ∃ ms, perform ob (stockKernel w junk inp) W .c2r false nb (fun _ => false) s m0s = .ok ms ∧
      Outcome bin nb m0s ms (.inr fun j p => s.factor wi.count * c2r3 wi d (g j) p) ∧
      Untouched bout bin nb (fun _ => false) m0s ms :=
  untouched_of stock_local (src_order S.geo false) (fun _ ha => C53_backward S hw hW hnb ha hs) ha

/-- C84: the calls of the backends that put lines, planes or boxes to a library. -/
theorem C84_library {K : Kernel ℂ ℝ} {ws : Executor → Int} (S : LibraryC2C bin bout wi wo opts ob) (hK : ExactLibrary K) (hT : TrigLocal K) (hws : ∀ e, 0 ≤ ws e)
    (hW : WorldOk W ob.plan fwd) (hnb : 0 < nb) {g : Nat → A3 Int → ℂ}
    (ha : CallArrays (srcBoxes fwd bin bout) (dstBoxes fwd bin bout) false false (ob.sizeWorkspace ws) nb inplace m0s (.inl g))
    (hs : SourceOrInplace (srcBoxes fwd bin bout) inplace) :
    ∃ ms, perform ob K W .same fwd nb inplace s m0s = .ok ms ∧
      Outcome (dstBoxes fwd bin bout) nb m0s ms (.inl fun j p => (s.factor wi.count : ℂ) * dft3 fwd wi (g j) p) ∧
      Untouched (srcBoxes fwd bin bout) (dstBoxes fwd bin bout) nb inplace m0s ms :=
  untouched_of hT (src_order S.geo fwd) (fun _ ha => C62_complex S hK hws hW hnb ha hs) ha

/-- C84: the sine and cosine transforms of the stock backend. -/
theorem C84_trig {z : Trig} {W : World ℝ Unit} {m0s : List (Mem ℝ Unit)} {ws : Tag → List ℝ} (S : StockR2R z bin bout wi wo opts ob) (hw : 0 < w)
    (hW : WorldOk W ob.plan fwd) (hnb : 0 < nb) (hws : EnoughWork ob ws) {g : Nat → A3 Int → ℝ}
    (ha : CallArrays (srcBoxes fwd bin bout) (dstBoxes fwd bin bout) false false (ob.sizeWorkspace trigWork) nb inplace m0s (.inl g))
    (hsrc : SourceHolds (srcBoxes fwd bin bout) inplace) :
    ∃ ms, performR2R ob (trigKernel (stockKernel w junk inp) ws) W fwd nb inplace s m0s = .ok ms ∧
      Outcome (dstBoxes fwd bin bout) nb m0s ms (.inl fun j p => s.factor (z.gain3 wi) * trig3 z fwd wi (g j) p) ∧
      Untouched (srcBoxes fwd bin bout) (dstBoxes fwd bin bout) nb inplace m0s ms :=
  untouched_of (trigKernel_local _ _) (src_order S.geo fwd) (fun _ ha => C45_calls S hw hW hnb hws ha hsrc) ha

/-- C84: the sine and cosine transforms of the FFTW backend. -/
theorem C84_waves {z : Wave} {K : Kernel ℝ Unit} {W : World ℝ Unit} {m0s : List (Mem ℝ Unit)} (S : LibraryR2R z bin bout wi wo opts ob) (hK : ExactWaves K z)
    (hT : TrigLocal K) (hW : WorldOk W ob.plan fwd) (hnb : 0 < nb) {g : Nat → A3 Int → ℝ}
    (ha : CallArrays (srcBoxes fwd bin bout) (dstBoxes fwd bin bout) false false (ob.sizeWorkspace noWork) nb inplace m0s (.inl g))
    (hsrc : SourceOrInplace (srcBoxes fwd bin bout) inplace) :
    ∃ ms, performR2R ob K W fwd nb inplace s m0s = .ok ms ∧
      Outcome (dstBoxes fwd bin bout) nb m0s ms (.inl fun j p => s.factor (z.gain3 wi) * wave3 z fwd wi (g j) p) ∧
      Untouched (srcBoxes fwd bin bout) (dstBoxes fwd bin bout) nb inplace m0s ms :=
  untouched_of hT (src_order S.geo fwd) (fun _ ha => C64_calls S hK hW hnb ha hsrc) ha

end

/-! ## Longer arrays exist -/

/-- Arrays that are longer than needed by the given entries are arrays for a call that is not in place. -/
theorem CallArrays.longer {src dst : List Box} {need : Nat → Int} {nb : Nat} {m0s : List (Mem ℂ ℝ)} {g : Nat → A3 Int → ℂ}
    (h : CallArrays src dst false false need nb (fun _ => false) m0s (.inl g)) (t : List ℂ) :
    CallArrays src dst false false need nb (fun _ => false) (m0s.map fun m => m.more (([], []), (t, []))) (.inl g) := by
  have key : ∀ (r : Nat) m, (m0s.map fun m => m.more (([], []), (t, [])))[r]? = some m → ∃ m0, m0s[r]? = some m0 ∧ m0.more (([], []), (t, [])) = m := by
    intro r m hm
    rw [List.getElem?_map, Option.map_eq_some_iff] at hm
    exact hm
  refine ⟨by rw [List.length_map]; exact h.ranks, ?_, ?_, ?_, ?_, ?_, ?_⟩
  · intro r m hm
    obtain ⟨m0, h0, rfl⟩ := key r m hm
    exact (congrArg Data.isReal (Data.more_nil m0.input)).trans (h.input r m0 h0)
  · intro r m hm
    obtain ⟨m0, h0, rfl⟩ := key r m hm
    have := h.output r m0 h0
    show (m0.output.more (t, [])).isReal = false
    cases ho : m0.output with
    | inl l => rfl
    | inr l => rw [ho] at this; cases this
  · intro r m hm
    obtain ⟨m0, h0, rfl⟩ := key r m hm
    have := h.inputSize r m0 h0
    show _ ≤ (m0.input.more ([], [])).size
    rw [Data.more_nil]
    exact this
  · intro r m hm
    obtain ⟨m0, h0, rfl⟩ := key r m hm
    refine (h.outputSize r m0 h0).trans ?_
    show m0.output.size ≤ (m0.output.more (t, [])).size
    cases m0.output <;> simp [Data.more, Data.size]
  · intro r m hm j hj
    obtain ⟨m0, h0, rfl⟩ := key r m hm
    have := h.start r m0 h0 j hj
    show HoldsSlot _ _ (m0.input.more ([], [])) _
    rw [Data.more_nil]
    exact this
  · intro r m hm
    obtain ⟨m0, h0, rfl⟩ := key r m hm
    exact h.work r m0 h0

/-- C84: arrays that are longer by any entries; these are read back after the call. -/
example (opts : Opts) (t : List ℂ) (g : Nat → A3 Int → ℂ) :
    ∃ wi wo ob, ∃ (W : World ℂ ℝ) (m0s ms : List (Mem ℂ ℝ)), StockC2C exIn exOut wi wo opts ob ∧
      perform ob (stockKernel 4 (fun _ _ => ⟨fun _ => 0, fun _ _ => 0⟩) (fun _ _ _ => 0)) W .same true 2 (fun _ => false) .none
        (m0s.map fun m => m.more (([], []), (t, []))) = .ok ms ∧
      Untouched exIn exOut 2 (fun _ => false) (m0s.map fun m => m.more (([], []), (t, []))) ms := by
  obtain ⟨wi, wo, ob, S⟩ := exObject opts
  obtain ⟨W, hW⟩ := world_exists ob.plan true
  obtain ⟨m0s, h⟩ := arrays_exist exIn exOut false (ob.sizeWorkspace noWork) 2 (.inl g : Field ℂ ℝ) (src_order S.geo true)
  obtain ⟨ms, h1, -, h3⟩ := C84_complex (fwd := true) (s := .none) S (by decide : 0 < 4) hW (by decide : 0 < 2) (h.longer t) (exSource _ (by simp [srcBoxes]))
  exact ⟨wi, wo, ob, W, m0s, ms, S, h1, h3⟩

end Verif
