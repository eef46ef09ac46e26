import Verif.Props.Calls
import Verif.Props.Accuracy

/-!
# The calls of the stock backend with any numbers

The same definitions as `stockKernel` in `StockCalls.lean`, with any type of numbers instead of exact complex numbers.
-/

namespace Verif
open Stock

/-- The numbers of a machine: complex numbers `C` with the operations of `Complex<F,1>`, real numbers `R`. -/
structure Numbers (C R : Type) where
  tw : Tw C
  cast : R → C
  re : C → R
  conj : C → C
  parts : C → R × R
  join : R → R → C
  law : ∀ a b, parts (join a b) = (a, b)

section
variable {C R : Type} [Zero C] [One C] [Add C] [Sub C] [Mul C] [Neg C] [Div C] [NatCast C]

/-- The body of the loop in the complex-to-real plan (stock.h:342-346), as `c2rStep`. -/
def Numbers.step (M : Numbers C R) (N : Nat) (v : List C) (i : Nat) (a : Arr C) : Arr C :=
  let a := st a i (v.getD i 0)
  st a (N - i) (M.conj (a i))

/-- The input array of the complex-to-real plan (stock.h:340-346), as `c2rInput`. -/
def Numbers.input (M : Numbers C R) (N : Nat) (v : List C) (inp : Arr C) : Arr C :=
  forRange 1 ((N + 2) / 2 - 1) (M.step N v) (st inp 0 (v.getD 0 0))

/-- The arithmetic of the stock backend without AVX (stock.h:337-354, 362-379, 414-427, 499-507), as `stockKernel`. -/
def Numbers.kernel (M : Numbers C R) (junk : Tag → Int × Int → Arr C × (Nat → Arr C)) (inp : Tag → Int × Int → Arr C) : Kernel C R where
  lanes := 1
  line := fun tag fwd n s v => stockFFT M.tw n fwd v (junk tag s).1 (junk tag s).2
  fromReal := fun tag n s v => do
    let out ← stockFFT M.tw n true (v.map M.cast) (junk tag s).1 (junk tag s).2
    return out.take ((n + 2) / 2)
  toReal := fun tag n s v =>
    if v.length ≠ (n + 2) / 2 then .error .ub
    else do
      let out ← stockFFT M.tw n false ((List.range n).map (M.input n v (inp tag s))) (junk tag s).1 (junk tag s).2
      return out.map M.re
  cast := M.cast
  re := M.re
  parts := M.parts
  join := M.join

/-- The value that the transform of a line computes. -/
def Numbers.fft (M : Numbers C R) (fwd : Bool) (v : List C) (k : Nat) : C :=
  match stockFFT M.tw v.length fwd v (fun _ => 0) (fun _ _ => 0) with
  | .ok r => r.getD k 0
  | .error _ => 0

/-- The value that the real-to-complex transform of a line computes. -/
def Numbers.r2c (M : Numbers C R) (v : List R) (k : Nat) : C := M.fft true (v.map M.cast) k

/-- The value that the complex-to-real transform of a line computes. -/
def Numbers.c2r (M : Numbers C R) (n : Nat) (v : List C) (k : Nat) : R := M.re (M.fft false ((List.range n).map (M.input n v fun _ => 0)) k)

theorem Numbers.line_ok (M : Numbers C R) {n : Nat} (h1 : 1 ≤ n) (hg : GoodLength n) (fwd : Bool) (v : List C) (hv : v.length = n) (out0 : Arr C) (W : Nat → Arr C) :
    stockFFT M.tw n fwd v out0 W = .ok ((List.range n).map (M.fft fwd v)) := by
  rw [C76_any_memory M.tw h1 hg fwd v hv out0 (fun _ => 0) W (fun _ _ => 0)]
  have hr := stockFFT_tree M.tw h1 fwd v hv (fun _ => 0) (fun _ _ => 0)
  rw [hr]
  congr 1
  refine List.map_congr_left fun k hk => ?_
  rw [List.mem_range] at hk
  unfold Numbers.fft
  rw [hv, hr]
  dsimp only
  rw [List.getD_eq_getElem?_getD, List.getElem?_map, List.getElem?_range hk]
  rfl

theorem Numbers.input_any (M : Numbers C R) {n : Nat} (v : List C) (inp inp' : Arr C) {k : Nat} (hk : k < n) : M.input n v inp k = M.input n v inp' k := by
  have key : ∀ m k, k < n → (k ≤ m ∨ n ≤ k + m) →
      forRange 1 m (M.step n v) (st inp 0 (v.getD 0 0)) k = forRange 1 m (M.step n v) (st inp' 0 (v.getD 0 0)) k := by
    intro m
    induction m with
    | zero =>
      intro k hk h
      have : k = 0 := by omega
      subst this
      simp only [forRange, st_same]
    | succ m ih =>
      intro k hk h
      rw [forRange, forRange]
      unfold Numbers.step
      dsimp only
      rw [st_same, st_same]
      by_cases h1 : k = n - (1 + m)
      · rw [h1, st_same, st_same]
      rw [st_ne _ _ h1, st_ne _ _ h1]
      by_cases h2 : k = 1 + m
      · rw [h2, st_same, st_same]
      rw [st_ne _ _ h2, st_ne _ _ h2]
      exact ih k hk (by omega)
  exact key _ k hk (by omega)

theorem Numbers.kernel_ok (M : Numbers C R) (junk : Tag → Int × Int → Arr C × (Nat → Arr C)) (inp : Tag → Int × Int → Arr C) :
    KernelOk (M.kernel junk inp) (fun n => 1 ≤ n ∧ GoodLength n) M.fft M.r2c M.c2r where
  lanes := Nat.one_pos
  law := M.law
  line := fun tag fwd n s v hn hv => M.line_ok hn.1 hn.2 fwd v hv _ _
  fromReal := fun tag n s v hn hv => by
    have := M.line_ok hn.1 hn.2 true (v.map M.cast) (by rw [List.length_map, hv]) (junk tag s).1 (junk tag s).2
    simp only [Numbers.kernel]
    rw [this]
    simp only [bind, Except.bind, pure, Except.pure]
    rw [← List.map_take, List.take_range, show min ((n + 2) / 2) n = n / 2 + 1 by omega]
    rfl
  toReal := fun tag n s v hn hv => by
    have e : (List.range n).map (M.input n v (inp tag s)) = (List.range n).map (M.input n v fun _ => 0) :=
      List.map_congr_left fun k hk => M.input_any v _ _ (List.mem_range.1 hk)
    have := M.line_ok hn.1 hn.2 false ((List.range n).map (M.input n v fun _ => 0)) (by rw [List.length_map, List.length_range]) (junk tag s).1 (junk tag s).2
    simp only [Numbers.kernel]
    rw [if_neg (by simp; omega), e, this]
    simp only [bind, Except.bind, pure, Except.pure]
    rw [List.map_map]
    rfl

end

/-! ## Scaled calls -/

section
variable {α β : Type} {K : Kernel α β} {W : World α β} {mode : Mode} {fwd : Bool} {nb : Nat} {inplace : Nat → Bool} {s : Scaling} {ob : Object}
  {bin bout : List Box} {r2c : Option (Fin 3)} {wi wo : Box} {m0s : List (Mem α β)} {F : Field α β} {opts : Opts}
  {need : Nat → Int} {G : Field α β} {realIn realOut : Bool}

/-- The values after the scaling. -/
noncomputable def scaledBy (f : ℝ → α → α) (g : ℝ → β → β) (s : Scaling) (n : Int) (F : Field α β) : Field α β :=
  if s = .none then F else F.scaled (f (s.factor n)) (g (s.factor n))

theorem call_of_transform (f : ℝ → α → α) (g : ℝ → β → β) (geo : Geometry bin bout r2c wi wo) (e0 : ob.plan.in0 = bin) (e3 : ob.plan.out3 = bout)
    (hfam : ob.family = .fourier) (hc : ob.plan.indexCount = wi.count) (ha : CallArrays (srcBoxes fwd bin bout) (dstBoxes fwd bin bout) realIn realOut need nb inplace m0s G)
    (h : ∃ ms, transform K W mode ob.fft fwd nb inplace m0s = .ok ms ∧ Outcome (dstBoxes fwd bin bout) nb m0s ms F) :
    ∃ ms, ob.call K f g W mode fwd nb inplace s m0s = .ok ms ∧ Outcome (dstBoxes fwd bin bout) nb m0s ms (scaledBy f g s wi.count F) := by
  obtain ⟨ms, h1, h2⟩ := h
  have hlen : (dstBoxes fwd bin bout).length = m0s.length := by rw [ha.ranks, dst_length geo, src_length geo]
  obtain ⟨ms', e1, e2⟩ := call_scaled (ob := ob) f g fwd s h2 (by rw [e0, e3]) hlen ha.outputSize (dst_order geo fwd)
  refine ⟨ms', ?_, ?_⟩
  · unfold Object.call
    rw [h1]
    exact e1
  · unfold scaledBy
    by_cases hs : s = .none
    · rw [if_pos hs] at e2 ⊢
      exact e2
    · rw [if_neg hs, scaleFactor_eq hfam hc hs] at e2
      rw [if_neg hs]
      exact e2

end

section
variable {C R : Type} [Zero C] [One C] [Add C] [Sub C] [Mul C] [Neg C] [Div C] [NatCast C] {M : Numbers C R}
  {W : World C R} {mode : Mode} {fwd : Bool} {nb : Nat} {inplace : Nat → Bool} {s : Scaling} {ob : Object} {d : Fin 3}
  {bin bout : List Box} {wi wo : Box} {m0s : List (Mem C R)} {opts : Opts} {G : Field C R} {f : ℝ → C → C} {g : ℝ → R → R}
  {junk : Tag → Int × Int → Arr C × (Nat → Arr C)} {inp : Tag → Int × Int → Arr C}

/-- The values of a call of an `fft3d`: the lines in the three directions one after the other, in the order of the plan. -/
def Numbers.field (M : Numbers C R) (w : Box) (dirs : A3 (Fin 3)) (mode : Mode) (fwd : Bool) (G : Field C R) : Field C R :=
  fieldC2C (M.kernel (fun _ _ => (fun _ => 0, fun _ _ => 0)) fun _ _ _ => 0) w M.fft (fun x => [dirs x]) mode fwd G 3

/-- All the calls of an `fft3d`, with any numbers. -/
theorem number_call (S : StockC2C bin bout wi wo opts ob) (hm : ModeOk mode fwd none) (hG : G.isReal = decide (mode = .r2c))
    (ha : CallArrays (srcBoxes fwd bin bout) (dstBoxes fwd bin bout) (decide (mode = .r2c)) (decide (mode = .c2r)) (ob.sizeWorkspace noWork) nb inplace m0s G)
    (hW : WorldOk W ob.plan fwd) (hnb : 0 < nb) (hin : ∀ r, r < bin.length → inplace r = true → mode = .same)
    (hfirst : mode = .r2c ∨ SourceHolds (srcBoxes fwd bin bout) inplace) :
    ∃ ms, ob.call (M.kernel junk inp) f g W mode fwd nb inplace s m0s = .ok ms ∧
      Outcome (dstBoxes fwd bin bout) nb m0s ms (scaledBy f g s wi.count (M.field wi ob.plan.dirs mode fwd G)) := by
  obtain ⟨-, hfam, hp, e1, e2, -, hc, -⟩ := makeFft3d_ok S.geo S.made
  refine call_of_transform f g S.geo e1 e2 hfam hc ha (call_stock (M.kernel_ok junk inp) S.geo S.made hm (fun e => ?_) hG (fun _ => le_rfl) ha hW hnb hin ?_)
  · rw [← extent_eq]; exact ⟨extent_pos S.geo e, S.lengths e⟩
  · rcases hfirst with h | h
    · exact .inl h
    · exact .inr fun r hr => source_empty h (by rw [src_length S.geo]; exact hr)

/-- All the calls of an `fft3d_r2c`, with any numbers. -/
theorem number_call_r2c (S : StockR2C bin bout d wi wo opts ob) (hm : ModeOk mode fwd (some d)) (hG : G.isReal = decide (mode = .r2c))
    (ha : CallArrays (srcBoxes fwd bin bout) (dstBoxes fwd bin bout) (decide (mode = .r2c)) (decide (mode = .c2r)) (ob.sizeWorkspace noWork) nb (fun _ => false) m0s G)
    (hW : WorldOk W ob.plan fwd) (hnb : 0 < nb)
    (hfirst : mode = .r2c ∨ SourceHolds (srcBoxes fwd bin bout) fun _ => false) (hhalf : mode = .r2c → nb = 1 ∨ ReshapesAfter ob bin.length) :
    ∃ ms, ob.call (M.kernel junk inp) f g W mode fwd nb (fun _ => false) s m0s = .ok ms ∧
      Outcome (dstBoxes fwd bin bout) nb m0s ms (scaledBy f g s wi.count (fieldR2C wi wo M.fft M.r2c M.c2r ob.plan.dirs G 3)) := by
  obtain ⟨hp, e1, e2, -, hfam, hc, -⟩ := makeFft3dR2C_ok S.geo S.first S.small S.made
  refine call_of_transform f g S.geo e1 e2 hfam hc ha (call_r2c (M.kernel_ok junk inp) S.geo S.first S.small S.made hm ?_ (fun e he => ?_) hG (fun _ => le_rfl)
    ha hW hnb (fun _ _ => rfl) ?_ hhalf)
  · rw [← extent_eq]; exact ⟨extent_pos S.geo d, S.lengths d⟩
  · rw [← extent_eq, wo_extent S.geo.complex (fun h => he (Option.some.inj h).symm)]; exact ⟨extent_pos S.geo e, S.lengths e⟩
  · rcases hfirst with h | h
    · exact .inl h
    · refine .inr fun r hr => ?_
      rcases source_empty h (r := r) (by rw [src_length S.geo]; exact hr) with h | h
      · cases h
      · exact h

end
end Verif
