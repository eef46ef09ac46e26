import Verif.Calls
import Verif.Dft3

/-!
# The calls of the stock backend compute the discrete Fourier transform
-/

namespace Verif
open Stock

/-- The arithmetic of the stock backend (`/repo/include/heffte_backend_stock.h`, cited as `stock.h`) with `w` lanes of a vector type:
`stockLine` (stock.h:267-281, 414-427), `stockR2C` (195-209, 362-379), `stockC2R` (146-161, 337-354); real input is stored with zero
imaginary part (499-502), real output are the real parts (504-507).  `junk` and `inp` are what the temporary arrays hold before. -/
noncomputable def stockKernel (w : Nat) (junk : Tag → Int × Int → Scratch) (inp : Tag → Int × Int → Arr ℂ) : Kernel ℂ ℝ where
  lanes := w
  line := fun tag fwd n => stockLine (junk tag) n fwd
  fromReal := fun tag n => stockR2C (junk tag) n
  toReal := fun tag n => stockC2R (junk tag) (inp tag) n
  cast := fun x => ⟨x, 0⟩
  re := fun z => z.re
  parts := fun z => (z.re, z.im)
  join := fun a b => ⟨a, b⟩

theorem stockKernel_ok {w : Nat} (hw : 0 < w) (junk : Tag → Int × Int → Scratch) (inp : Tag → Int × Int → Arr ℂ) :
    KernelOk (stockKernel w junk inp) (fun n => 1 ≤ n ∧ GoodLength n) dft r2c c2r where
  lanes := hw
  law := fun _ _ => rfl
  line := fun tag fwd n s v hn hv => C34_stock_fft_is_dft hn.1 hn.2 fwd v hv _ _
  fromReal := fun tag n s v hn hv => by
    have := stockR2C_eq (by omega : 0 < n) (fun v hv out0 W => C34_stock_fft_is_dft hn.1 hn.2 true v hv out0 W) (junk tag) s v hv
    rw [show (n + 2) / 2 = n / 2 + 1 by omega] at this
    exact this
  toReal := fun tag n s v hn hv =>
    stockC2R_eq (by omega : 0 < n) (fun v hv out0 W => C34_stock_fft_is_dft hn.1 hn.2 false v hv out0 W) (junk tag) (inp tag) s v (by omega)

/-! ## Scaling -/

section
variable {α β : Type}

/-- Multiply all the values. -/
def Field.scaled (f : α → α) (g : β → β) : Field α β → Field α β
  | .inl x => .inl fun j p => f (x j p)
  | .inr x => .inr fun j p => g (x j p)

theorem scaleList_rd {f : α → α} {n : Int} {l : List α} (h0 : 0 ≤ n) (hn : n ≤ l.length) :
    ∃ l', scaleList f n l = .ok l' ∧ l'.length = l.length ∧ ∀ a, 0 ≤ a → a < n → rd l' a = (rd l a).map f := by
  unfold scaleList
  rw [if_pos hn]
  refine ⟨_, rfl, ?_, fun a ha hb => ?_⟩
  · simp; omega
  · unfold rd
    rw [if_pos ha, if_pos ha]
    · rw [List.getElem?_append_left (by simp; omega), List.getElem?_map, List.getElem?_take_of_lt (by omega)]

theorem scaleData_rd {f : α → α} {g : β → β} {n : Int} {x : Data α β} (h0 : 0 ≤ n) (hn : n ≤ x.size) :
    ∃ x', scaleData f g n x = .ok x' ∧ Alike x' x ∧ ∀ (F : Field α β) a j p, 0 ≤ a → a < n → x.rd a = some (F.val j p) →
      x'.rd a = some ((F.scaled f g).val j p) := by
  cases x with
  | inl l =>
    obtain ⟨l', e1, e2, e3⟩ := scaleList_rd (f := f) h0 hn
    refine ⟨.inl l', by simp only [scaleData, bind, Except.bind]; rw [e1], ⟨rfl, e2⟩, fun F a j p h1 h2 h3 => ?_⟩
    simp only [Data.rd] at h3 ⊢
    rw [e3 a h1 h2]
    cases F with
    | inl F =>
      simp only [Field.val, Field.scaled] at h3 ⊢
      cases hr : rd l a with
      | none => rw [hr] at h3; simp at h3
      | some v => rw [hr] at h3; simp at h3 ⊢; rw [h3]
    | inr F =>
      simp only [Field.val] at h3
      cases hr : rd l a <;> rw [hr] at h3 <;> simp at h3
  | inr l =>
    obtain ⟨l', e1, e2, e3⟩ := scaleList_rd (f := g) h0 hn
    refine ⟨.inr l', by simp only [scaleData, bind, Except.bind]; rw [e1], ⟨rfl, e2⟩, fun F a j p h1 h2 h3 => ?_⟩
    simp only [Data.rd] at h3 ⊢
    rw [e3 a h1 h2]
    cases F with
    | inr F =>
      simp only [Field.val, Field.scaled] at h3 ⊢
      cases hr : rd l a with
      | none => rw [hr] at h3; simp at h3
      | some v => rw [hr] at h3; simp at h3 ⊢; rw [h3]
    | inl F =>
      simp only [Field.val] at h3
      cases hr : rd l a <;> rw [hr] at h3 <;> simp at h3

variable {ob : Object} {dst : List Box} {nb : Nat} {m0s ms : List (Mem α β)} {F : Field α β}

/-- The scaling reaches all the values of the output. -/
theorem call_scaled (f : ℝ → α → α) (g : ℝ → β → β) (fwd : Bool) (s : Scaling) (h : Outcome dst nb m0s ms F) (hdst : dst = dstBoxes fwd ob.plan.in0 ob.plan.out3)
    (hl : dst.length = m0s.length) (hsize : ∀ (r : Nat) m0, m0s[r]? = some m0 → nb * (boxAt dst r).points.card ≤ m0.output.size)
    (hord : ∀ b ∈ dst, IsOrder b.order) :
    ∃ ms', mapRes (applyScale f g ob fwd nb s) 0 ms = .ok ms' ∧
      Outcome dst nb m0s ms' (if s = .none then F else F.scaled (f (ob.scaleFactor s)) (g (ob.scaleFactor s))) := by
  have hcount : ∀ r, r < dst.length → (if fwd then ob.sizeOutbox r else ob.sizeInbox r) = ((boxAt dst r).points.card : Int) := by
    intro r hr
    have := boxAt_get hr
    rw [← Box.count_eq_card]
    subst hdst
    cases fwd with
    | true =>
      show countAt ob.plan.out3 r = (boxAt ob.plan.out3 r).count
      have this : ob.plan.out3[r]? = some (boxAt ob.plan.out3 r) := this
      unfold countAt; rw [this]; rfl
    | false =>
      show countAt ob.plan.in0 r = (boxAt ob.plan.in0 r).count
      have this : ob.plan.in0[r]? = some (boxAt ob.plan.in0 r) := this
      unfold countAt; rw [this]; rfl
  by_cases hs : s = .none
  · refine ⟨ms, ?_, by rw [if_pos hs]; exact h⟩
    obtain ⟨ms', e1, e2, e3⟩ := mapRes_ok (f := applyScale f g ob fwd nb s) (P := fun _ m m' => m' = m) ms 0 (by
      intro r m _
      refine ⟨m, ?_, rfl⟩
      unfold applyScale
      rw [if_neg (by simpa using hs)])
    rw [e1]
    congr 1
    apply List.ext_getElem?
    intro i
    cases hi : ms[i]? with
    | none => rw [List.getElem?_eq_none_iff] at hi ⊢; omega
    | some m =>
      obtain ⟨c, h1, h2⟩ := e3 i m hi
      rw [h1, h2]
  · obtain ⟨ms', e1, e2, e3⟩ := mapRes_ok (f := applyScale f g ob fwd nb s) (P := fun r m m' => Stays m m' ∧
        ∀ j, j < nb → HoldsSlot (boxAt dst r) j m.output F →
          HoldsSlot (boxAt dst r) j m'.output (F.scaled (f (ob.scaleFactor s)) (g (ob.scaleFactor s)))) ms 0 (by
      intro r m hr
      rw [Nat.zero_add]
      have hrl : r < m0s.length := by rw [← h.ranks]; exact (List.getElem?_eq_some_iff.1 hr).1
      have hst := h.same r _ m (List.getElem?_eq_getElem hrl) hr
      have hsz := hsize r _ (List.getElem?_eq_getElem hrl)
      have hc := hcount r (by omega)
      obtain ⟨x', x1, x2, x3⟩ := scaleData_rd (f := f (ob.scaleFactor s)) (g := g (ob.scaleFactor s))
        (n := nb * (if fwd then ob.sizeOutbox r else ob.sizeInbox r)) (x := m.output)
        (by rw [hc]; exact mul_nonneg (Int.natCast_nonneg _) (Int.natCast_nonneg _)) (by rw [hc, hst.output.2]; exact_mod_cast hsz)
      refine ⟨{ m with output := x' }, ?_, ⟨rfl, x2, rfl⟩, ?_⟩
      · unfold applyScale
        rw [if_pos hs, x1]; rfl
      · intro j hj hv p hp
        have hb := boxAt_mem (l := dst) (r := r) (by omega)
        have ho := Box.offset_range (hord _ hb) hp
        refine x3 F _ j p ?_ ?_ (hv p hp)
        · have : (0 : Int) ≤ j * (boxAt dst r).points.card := mul_nonneg (Int.natCast_nonneg _) (Int.natCast_nonneg _)
          omega
        · rw [hc]
          have : ((j + 1 : Nat) : Int) * (boxAt dst r).points.card ≤ nb * (boxAt dst r).points.card :=
            mul_le_mul_of_nonneg_right (by exact_mod_cast hj) (Int.natCast_nonneg _)
          rw [Box.count_eq_card] at ho
          push_cast at this
          rw [add_mul, one_mul] at this
          omega)
    refine ⟨ms', e1, e2.trans h.ranks, ?_, ?_⟩
    · intro r m0 m' h0 hm'
      have hr : r < ms.length := by rw [← e2]; exact (List.getElem?_eq_some_iff.1 hm').1
      obtain ⟨c, c1, c2, -⟩ := e3 r _ (List.getElem?_eq_getElem hr)
      rw [hm'] at c1
      obtain rfl := Option.some.inj c1
      exact (h.same r m0 _ h0 (List.getElem?_eq_getElem hr)).trans c2
    · intro r m' hm' j hj
      have hr : r < ms.length := by rw [← e2]; exact (List.getElem?_eq_some_iff.1 hm').1
      obtain ⟨c, c1, -, c3⟩ := e3 r _ (List.getElem?_eq_getElem hr)
      rw [hm'] at c1
      obtain rfl := Option.some.inj c1
      rw [if_neg hs]
      rw [Nat.zero_add] at c3
      exact c3 j hj (h.values r _ (List.getElem?_eq_getElem hr) j hj)

end

/-! ## The transforms -/

/-- The factor of a call with scaling, for `n` indexes. -/
noncomputable def Scaling.factor (s : Scaling) (n : Int) : ℝ :=
  match s with
  | .none => 1
  | .full => 1 / (n : ℝ)
  | .symmetric => 1 / Real.sqrt (n : ℝ)

theorem scaleFactor_eq {ob : Object} {n : Int} (hf : ob.family = .fourier) (h : ob.plan.indexCount = n) {s : Scaling} (hs : s ≠ .none) : ob.scaleFactor s = s.factor n := by
  unfold Object.scaleFactor Object.baseFactor Scaling.factor
  rw [hf, h]
  cases s with
  | none => exact absurd rfl hs
  | full => rfl
  | symmetric => simp

/-- The calls of the library: complex and real numbers are multiplied with the factor. -/
noncomputable def perform (ob : Object) (K : Kernel ℂ ℝ) (W : World ℂ ℝ) (mode : Mode) (fwd : Bool) (nb : Nat) (inplace : Nat → Bool)
    (s : Scaling) (mems : List (Mem ℂ ℝ)) : Res (List (Mem ℂ ℝ)) :=
  ob.call K (fun x z => (x : ℂ) * z) (fun x y => x * y) W mode fwd nb inplace s mems

/-- The values of a field times a number. -/
noncomputable def times (x : ℝ) (F : Field ℂ ℝ) : Field ℂ ℝ := F.scaled (fun z => (x : ℂ) * z) (fun y => x * y)

theorem times_one (F : Field ℂ ℝ) : times 1 F = F := by
  cases F <;> simp [times, Field.scaled]

section
variable {K : Kernel ℂ ℝ} {W : World ℂ ℝ} {mode : Mode} {fwd : Bool} {nb : Nat} {inplace : Nat → Bool} {s : Scaling} {ob : Object}
  {bin bout : List Box} {r2c : Option (Fin 3)} {wi wo : Box} {m0s : List (Mem ℂ ℝ)} {F : Field ℂ ℝ} {opts : Opts}
  {need : Nat → Int} {G : Field ℂ ℝ} {realIn realOut : Bool}

theorem run_of_transform (geo : Geometry bin bout r2c wi wo) (e0 : ob.plan.in0 = bin) (e3 : ob.plan.out3 = bout)
    (hfam : ob.family = .fourier) (hc : ob.plan.indexCount = wi.count) (ha : CallArrays (srcBoxes fwd bin bout) (dstBoxes fwd bin bout) realIn realOut need nb inplace m0s G)
    (h : ∃ ms, transform K W mode ob.fft fwd nb inplace m0s = .ok ms ∧ Outcome (dstBoxes fwd bin bout) nb m0s ms F) :
    ∃ ms, perform ob K W mode fwd nb inplace s m0s = .ok ms ∧ Outcome (dstBoxes fwd bin bout) nb m0s ms (times (s.factor wi.count) F) := by
  obtain ⟨ms, h1, h2⟩ := h
  have hlen : (dstBoxes fwd bin bout).length = m0s.length := by
    rw [ha.ranks]
    cases fwd
    · exact geo.length.symm
    · exact geo.length
  have hord : ∀ b ∈ dstBoxes fwd bin bout, IsOrder b.order := by
    intro b hb
    obtain ⟨o, q1, q2⟩ := geo.orderIn
    obtain ⟨o', q3, q4⟩ := geo.orderOut
    cases fwd with
    | true => rw [q4 b hb]; exact q3
    | false => rw [q2 b hb]; exact q1
  obtain ⟨ms', e1, e2⟩ := call_scaled (ob := ob) (fun x z => (x : ℂ) * z) (fun x y => x * y) fwd s h2 (by rw [e0, e3]) hlen ha.outputSize hord
  refine ⟨ms', ?_, ?_⟩
  · unfold perform Object.call
    rw [h1]
    exact e1
  · by_cases hs : s = .none
    · rw [if_pos hs] at e2
      subst hs
      rw [show Scaling.factor .none wi.count = 1 from rfl, times_one]
      exact e2
    · rw [if_neg hs, scaleFactor_eq hfam hc hs] at e2
      exact e2

end

section
variable {K : Kernel ℂ ℝ} {wi wo : Box} {p : Plan} {n : Nat} {r2c' : Option (Fin 3)}

theorem AllDirs.rev {a b c : Fin 3} (h : AllDirs a b c) : AllDirs c b a := ⟨fun e => h.2.2 e.symm, fun e => h.2.1 e.symm, fun e => h.1 e.symm⟩

theorem chain_dft3 {dirs : A3 (Fin 3)} (h : AllDirs dirs.x dirs.y dirs.z) (fwd : Bool) (c : Nat → A3 Int → ℂ) :
    chain wi (dft fwd) (fun x => [dirs x]) fwd c 3 = fun j => dft3 fwd wi (c j) := by
  funext j
  cases fwd with
  | true => exact alongAll_dft3 true wi h (c j)
  | false => exact alongAll_dft3 false wi h.rev (c j)

end
end Verif
