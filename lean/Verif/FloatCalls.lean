import Verif.NumberCalls

/-!
# The calls of the stock backend in floating point arithmetic

The numbers of `NumberCalls.lean` are the floating point numbers of `Rounding.lean`.
-/

namespace Verif
open Stock Finset

/-- `std::complex<F>` and `F`. -/
def fltNumbers (A : Arith) (tw : Tw (Flt A)) : Numbers (Flt A) ℝ where
  tw := tw
  cast := fun x => Flt.mk x 0
  re := fun z => z.val.re
  conj := fun z => Flt.mk z.val.re (-z.val.im)
  parts := fun z => (z.val.re, z.val.im)
  join := Flt.mk
  law := fun _ _ => rfl

/-- The numbers of the stock backend. -/
noncomputable abbrev stockNumbers (A : Arith) : Numbers (Flt A) ℝ := fltNumbers A (fltTw A)

/-- `get_scale_factor` (fft3d.h:545-547, 577, 590; fft3d_r2c.h:297, 303, 316) in `double`: `1.0 / static_cast<double>(plan.index_count)`,
and the square root of that for `scale::symmetric`. -/
noncomputable def Stock.Arith.factor (A : Arith) (s : Scaling) (count : Int) : ℝ :=
  let f := A.rndA (1 / A.rndA count)
  if s = .symmetric then A.rndA (Real.sqrt f) else f

/-- `data[i] *= scale_factor` (pack3d.h:209-211): the product is in `double`, then it is converted to `F`. -/
noncomputable def Stock.Arith.times (A : Arith) (c x : ℝ) : ℝ := A.rnd (A.rndA (x * c))

/-- The scaling of complex data as twice as many real numbers (pack3d.h:222-224). -/
noncomputable def Stock.Arith.timesC (A : Arith) (c : ℝ) (z : Flt A) : Flt A := Flt.mk (A.times c z.val.re) (A.times c z.val.im)

/-- A call of the stock backend without AVX in floating point arithmetic, see `Object.call`. -/
noncomputable def floatCall (A : Arith) (ob : Object) (junk : Tag → Int × Int → Arr (Flt A) × (Nat → Arr (Flt A))) (inp : Tag → Int × Int → Arr (Flt A))
    (W : World (Flt A) ℝ) (mode : Mode) (fwd : Bool) (nb : Nat) (inplace : Nat → Bool) (s : Scaling) (mems : List (Mem (Flt A) ℝ)) :
    Res (List (Mem (Flt A) ℝ)) :=
  ob.call ((stockNumbers A).kernel junk inp) (fun _ => A.timesC (A.factor s ob.plan.indexCount)) (fun _ => A.times (A.factor s ob.plan.indexCount))
    W mode fwd nb inplace s mems

/-! ## One line -/

/-- The lengths: no prime factor is above `q`, and the factor search does not fail on the square of a prime. -/
structure Smooth (q n : Nat) : Prop where
  pos : 1 ≤ n
  two : 2 ≤ q
  small : q ≤ 100000
  factors : ∀ p, p.Prime → p ∣ n → p ≤ q
  squares : ∀ p, p.Prime → 1213 < p → ¬ p * p ∣ n

theorem Smooth.good {q n : Nat} (h : Smooth q n) : GoodLength n := reach_of_smooth h.small h.factors h.squares

section
variable {A : Arith} {q n : Nat} {fwd : Bool}

theorem near_line (h : Smooth q n) {v : List (Flt A)} {w : List ℂ} (hv : v.length = n) (hw : w.length = n) {b : Nat → ℝ} {τ : ℝ}
    (hb : ∀ j < n, Near A (b j) τ (v.getD j 0, w.getD j 0)) {k : Nat} (hk : k < n) :
    Near A (∑ j ∈ range n, b j) (τ + 60 * q * (n - 1)) ((stockNumbers A).fft fwd v k, dft fwd w k) := by
  obtain ⟨hg, hc⟩ := tree_cost h.two h.small n h.pos h.factors h.squares
  have hgood := good_initTree n h.pos h.good
  set X : Arr (Flt A × ℂ) := fun a => (v.getD a 0, w.getD a 0) with hX
  set Y : Arr (Flt A × ℂ) := fun _ => (0, 0) with hY
  set V : Nat → Arr (Flt A × ℂ) := fun _ _ => (0, 0) with hV
  have e1 := congrArg Prod.fst (fft_map (pair_fst A) (initTree n) 0 fwd X 0 1 Y 0 1 V)
  have e2 := congrArg Prod.fst (fft_map (pair_snd A) (initTree n) 0 fwd X 0 1 Y 0 1 V)
  obtain ⟨-, ht⟩ := tree_graded (nearGraded A) omCost_mono (initTree n) hgood
  obtain ⟨h1, -⟩ := ht 0 fwd X 0 1 Y 0 1 V (by omega) b τ (fun k hk => by
    rw [tree_sz] at hk
    rw [zero_add, mul_one]
    exact hb k hk)
  have h2 : Near A _ _ _ := h1 k (by rw [tree_sz]; exact hk)
  rw [tree_sz, hg, one_mul, zero_add, mul_one] at h2
  have f1 : (((initTree n).fft (pairTw A) 0 fwd X 0 1 Y 0 1 V).1 k).1 = (stockNumbers A).fft fwd v k := by
    refine (congrFun e1 k).trans ?_
    have r1 := (stockNumbers A).line_ok h.pos h.good fwd v hv (mapA Prod.fst Y) (mapW Prod.fst V)
    have r2 := stockFFT_tree (stockNumbers A).tw h.pos fwd v hv (mapA Prod.fst Y) (mapW Prod.fst V)
    rw [r1, Except.ok.injEq] at r2
    have r3 := congrArg (fun l => l[k]?) r2
    simp only [List.getElem?_map, List.getElem?_range hk, Option.map_some, Option.some.injEq] at r3
    exact r3.symm
  have f2 : (((initTree n).fft (pairTw A) 0 fwd X 0 1 Y 0 1 V).1 k).2 = dft fwd w k := by
    refine (congrFun e2 k).trans ?_
    have hd := (tree_dft complexTw_ok (initTree n) hgood 0 fwd (mapA Prod.snd X) 0 1 (mapA Prod.snd Y) 0 1 (mapW Prod.snd V) (by omega)).1 k
      (by rw [tree_sz]; exact hk)
    rw [tree_sz, zero_add, mul_one] at hd
    refine hd.trans ?_
    unfold dft
    rw [hw]
    refine sum_congr rfl fun j _ => ?_
    rw [om_eq_root, root_pow, one_mul, zero_add, mul_one]
    rfl
  rw [← f1, ← f2]
  exact h2.mono le_rfl (by linarith)

/-! ## The lines of a box -/

theorem set_mem {w : Box} {p : A3 Int} (hp : p ∈ w) (d : Fin 3) {i : Nat} (hi : i < w.extent d) : p.set d (w.low.get d + i) ∈ w := by
  rw [Box.mem_def] at hp ⊢
  unfold Box.extent at hi
  intro e
  by_cases h : e = d
  · subst h
    rw [A3.get_set_self]
    omega
  · rw [A3.get_set_ne _ _ h]
    exact hp e

theorem rel_lt {w : Box} {p : A3 Int} (hp : p ∈ w) (d : Fin 3) : w.rel p d < w.extent d := by
  have := Box.mem_def.1 hp d
  unfold Box.rel Box.extent
  omega

theorem lineOf_entry {α : Type} (w : Box) (d : Fin 3) (G : A3 Int → α) (p : A3 Int) (x : α) {i : Nat} (hi : i < w.extent d) :
    (lineOf w d G p).getD i x = G (p.set d (w.low.get d + i)) := by
  unfold lineOf
  rw [getD_range_map _ _ (show i < (w.high.get d - w.low.get d + 1).toNat from hi)]

theorem near_along {w : Box} {d : Fin 3} (h : Smooth q (w.extent d)) {g : A3 Int → Flt A} {G : A3 Int → ℂ} {B : A3 Int → ℝ} {τ : ℝ}
    (hb : ∀ p ∈ w, Near A (B p) τ (g p, G p)) {p : A3 Int} (hp : p ∈ w) :
    Near A (∑ i ∈ range (w.extent d), B (p.set d (w.low.get d + i))) (τ + 60 * q * (w.extent d - 1))
      (along w d ((stockNumbers A).fft fwd) g p, along w d (dft fwd) G p) := by
  refine near_line h (b := fun i => B (p.set d (w.low.get d + i))) ?_ ?_ (fun j hj => ?_) (rel_lt hp d)
  · rw [lineOf_length, ← extent_eq]
  · rw [lineOf_length, ← extent_eq]
  · rw [lineOf_entry _ _ _ _ _ hj, lineOf_entry _ _ _ _ _ hj]
    exact hb _ (set_mem hp d hj)

/-- The roundings of the transforms of the lines in all directions. -/
noncomputable def roundings (q : Nat) (w : Box) : ℝ := ∑ d : Fin 3, 60 * (q : ℝ) * (w.extent d - 1)

theorem roundings_nonneg {w : Box} (h : ∀ d, Smooth q (w.extent d)) : 0 ≤ roundings q w := by
  refine sum_nonneg fun d _ => ?_
  have : (1 : ℝ) ≤ w.extent d := by exact_mod_cast (h d).pos
  exact mul_nonneg (by positivity) (by linarith)

theorem sum_dirs {M : Type} [AddCommMonoid M] {a b c : Fin 3} (h : AllDirs a b c) (f : Fin 3 → M) : ∑ d : Fin 3, f d = f a + f b + f c :=
  prod_dirs (M := Multiplicative M) h f

theorem near_dft3 {w : Box} (h : ∀ d, Smooth q (w.extent d)) {a b c : Fin 3} (hd : AllDirs a b c) {g : A3 Int → Flt A} {G : A3 Int → ℂ} {B : A3 Int → ℝ} {τ : ℝ}
    (hb : ∀ p ∈ w, Near A (B p) τ (g p, G p)) {p : A3 Int} (hp : p ∈ w) :
    Near A (∑ x ∈ w.points, B x) (τ + roundings q w) (alongAll w ((stockNumbers A).fft fwd) [a, b, c] g p, dft3 fwd w G p) := by
  have h1 := fun p hp => near_along (fwd := fwd) (h a) hb (p := p) hp
  have h2 := fun p hp => near_along (fwd := fwd) (h b) h1 (p := p) hp
  have h3 := near_along (fwd := fwd) (h c) h2 hp
  rw [← alongAll_dft3 fwd w hd]
  refine h3.mono (le_of_eq ?_) (le_of_eq ?_)
  · rw [sum_points w hd p]
    rfl
  · unfold roundings
    rw [sum_dirs hd]
    ring

/-! ## The scaling -/

/-- A value with the relative error of `κ` roundings. -/
def Rel (A : Arith) (κ x y : ℝ) : Prop := |x - y| ≤ (Real.exp (κ * A.u) - 1) * |y|

theorem Rel.trans {κ κ' x y z : ℝ} (h : Rel A κ x y) (h' : Rel A κ' y z) (hκ : 0 ≤ κ) : Rel A (κ + κ') x z := by
  unfold Rel at *
  have h1 := abs_sub_le x y z
  have h2 := abs_add_le (y - z) z
  rw [sub_add_cancel] at h2
  have h3 := A.exp_ge hκ
  have h4 : |y| ≤ Real.exp (κ' * A.u) * |z| := by linarith
  have h5 := mul_le_mul_of_nonneg_left h4 h3
  rw [add_mul, Real.exp_add]
  linarith

theorem rel_of_err {x y : ℝ} (h : |x - y| ≤ A.u * |y|) : Rel A 1 x y := by
  refine h.trans (mul_le_mul_of_nonneg_right ?_ (abs_nonneg _))
  have := Real.add_one_le_exp (1 * A.u)
  linarith

theorem Rel.mul {κ x y : ℝ} (h : Rel A κ x y) (c : ℝ) : Rel A κ (c * x) (c * y) := by
  unfold Rel at *
  rw [← mul_sub, abs_mul, abs_mul]
  have := mul_le_mul_of_nonneg_left h (abs_nonneg c)
  linarith

theorem Rel.mono {κ κ' x y : ℝ} (h : Rel A κ x y) (hκ : κ ≤ κ') : Rel A κ' x y := by
  refine le_trans h (mul_le_mul_of_nonneg_right ?_ (abs_nonneg _))
  have := Real.exp_le_exp.2 (mul_le_mul_of_nonneg_right hκ A.u_nonneg)
  linarith

theorem rel_factor {count : Int} (hc : 0 < count) (s : Scaling) (hs : s ≠ .none) : Rel A 4 (A.factor s count) (s.factor count) := by
  have hc' : (0 : ℝ) < count := by exact_mod_cast hc
  have hu := A.u_nonneg
  have hu' := A.u_le
  have h1 := A.rndA_err count
  rw [abs_of_pos hc'] at h1
  have h1' := abs_le.1 h1
  have hp : 0 < A.rndA count := by nlinarith
  -- the quotient
  have h2 : Rel A 2 (1 / A.rndA count) (1 / count) := by
    unfold Rel
    rw [div_sub_div _ _ hp.ne' hc'.ne', abs_div, abs_mul, abs_of_pos hp, abs_of_pos hc', abs_of_pos (one_div_pos.2 hc'), one_mul, mul_one, abs_sub_comm]
    rw [div_le_iff₀ (by positivity)]
    have h3 := Real.add_one_le_exp (2 * A.u)
    have h4 : A.u * count ≤ (2 * A.u) * A.rndA count := by nlinarith
    have h5 : (2 * A.u) * A.rndA count ≤ (Real.exp (2 * A.u) - 1) * A.rndA count := mul_le_mul_of_nonneg_right (by linarith) hp.le
    calc |A.rndA count - count| ≤ A.u * count := h1
      _ ≤ (Real.exp (2 * A.u) - 1) * A.rndA count := h4.trans h5
      _ = _ := by field_simp
  have h3 : Rel A 3 (A.rndA (1 / A.rndA count)) (1 / count) :=
    ((rel_of_err (A.rndA_err _)).trans h2 (by norm_num)).mono (by norm_num)
  unfold Stock.Arith.factor
  cases s with
  | none => exact absurd rfl hs
  | full =>
    simp only [reduceCtorEq, if_false]
    exact (h3.mono (by norm_num))
  | symmetric =>
    simp only [if_true]
    set f := A.rndA (1 / A.rndA count) with hf
    have hf0 : 0 ≤ f := by
      have h4 := (abs_le.1 (A.rndA_err (1 / A.rndA count))).1
      rw [abs_of_pos (one_div_pos.2 hp)] at h4
      have := one_div_pos.2 hp
      nlinarith
    have h4 : Rel A 3 (Real.sqrt f) (Real.sqrt (1 / count)) := by
      unfold Rel at *
      have hq : 0 < 1 / (count : ℝ) := one_div_pos.2 hc'
      have hsq := Real.sqrt_pos.2 hq
      rw [abs_of_pos hsq]
      rw [abs_of_pos hq] at h3
      have hsf := Real.sqrt_nonneg f
      have hm : |Real.sqrt f - Real.sqrt (1 / count)| * (Real.sqrt f + Real.sqrt (1 / count)) = |f - 1 / count| := by
        rw [← abs_of_nonneg (add_nonneg hsf hsq.le), ← abs_mul]
        congr 1
        have e1 := Real.mul_self_sqrt hf0
        have e2 := Real.mul_self_sqrt hq.le
        nlinarith
      have h5 : |Real.sqrt f - Real.sqrt (1 / count)| * Real.sqrt (1 / count) ≤ (Real.exp (3 * A.u) - 1) * Real.sqrt (1 / count) * Real.sqrt (1 / count) := by
        rw [mul_assoc, Real.mul_self_sqrt hq.le]
        refine le_trans ?_ h3
        rw [← hm]
        exact mul_le_mul_of_nonneg_left (by linarith) (abs_nonneg _)
      exact le_of_mul_le_mul_right h5 hsq
    have h6 := ((rel_of_err (A.rndA_err (Real.sqrt f))).trans h4 (by norm_num)).mono (κ' := 4) (by norm_num)
    rwa [Real.sqrt_div zero_le_one, Real.sqrt_one] at h6

theorem rel_times {c c' x : ℝ} (h : Rel A 4 c c') : Rel A 6 (A.times c x) (x * c') :=
  ((rel_of_err (A.rnd_err _)).trans ((rel_of_err (A.rndA_err _)).trans (h.mul x) (by norm_num)) (by norm_num)).mono (by norm_num)

theorem factor_nonneg (s : Scaling) {n : Int} (hn : 0 ≤ n) : 0 ≤ s.factor n := by
  have : (0 : ℝ) ≤ n := by exact_mod_cast hn
  unfold Scaling.factor
  cases s <;> dsimp only <;> positivity

/-- What a call does with a complex value at the end. -/
noncomputable def endC (A : Arith) (s : Scaling) (count : Int) (z : Flt A) : Flt A := if s = .none then z else A.timesC (A.factor s count) z

/-- What a call does with a real value at the end. -/
noncomputable def endR (A : Arith) (s : Scaling) (count : Int) (x : ℝ) : ℝ := if s = .none then x else A.times (A.factor s count) x

theorem near_end {count : Int} (hc : 0 < count) (s : Scaling) {b τ : ℝ} {x : Flt A} {z : ℂ} (h : Near A b τ (x, z)) :
    Near A (s.factor count * b) (τ + 6) (endC A s count x, (s.factor count : ℂ) * z) := by
  unfold endC
  by_cases hs : s = .none
  · subst hs
    rw [if_pos rfl]
    have : (Scaling.none.factor count : ℝ) = 1 := rfl
    rw [this, one_mul, Complex.ofReal_one, one_mul]
    exact h.mono le_rfl (by linarith)
  rw [if_neg hs]
  set f := s.factor count with hf
  have hf0 : 0 ≤ f := factor_nonneg s hc.le
  have hr := rel_factor (A := A) hc s hs
  rw [← hf] at hr
  have hn : ‖(f : ℂ) * z‖ = f * ‖z‖ := by rw [norm_mul, Complex.norm_real, Real.norm_eq_abs, abs_of_nonneg hf0]
  refine ⟨by linarith [h.1], ?_, ?_⟩
  · show ‖(f : ℂ) * z‖ ≤ _
    rw [hn]
    exact mul_le_mul_of_nonneg_left h.2.1 hf0
  · refine near_round (δ := Real.exp (6 * A.u) - 1) (x := f * x.val) le_rfl (A.exp_ge (by norm_num)) (mul_nonneg hf0 h.size) ?_ ?_ ?_
    · rw [← mul_sub, norm_mul, Complex.norm_real, Real.norm_eq_abs, abs_of_nonneg hf0]
      have := mul_le_mul_of_nonneg_left h.2.2 hf0
      simp only at this
      linarith
    · show ‖(f : ℂ) * z‖ ≤ _
      rw [hn]
      exact mul_le_mul_of_nonneg_left h.2.1 hf0
    · have h1 : ‖(A.timesC (A.factor s count) x).val - f * x.val‖ ≤ (Real.exp (6 * A.u) - 1) * ‖(f : ℂ) * x.val‖ := by
        refine norm_le_of_parts (A.exp_ge (by norm_num)) ?_ ?_
        · have := rel_times (x := x.val.re) hr
          unfold Rel at this
          rw [Complex.sub_re, Complex.re_ofReal_mul, mul_comm f]
          exact this
        · have := rel_times (x := x.val.im) hr
          unfold Rel at this
          rw [Complex.sub_im, Complex.im_ofReal_mul, mul_comm f]
          exact this
      refine h1.trans (mul_le_mul_of_nonneg_left ?_ (A.exp_ge (by norm_num)))
      rw [norm_mul, Complex.norm_real, Real.norm_eq_abs, abs_of_nonneg hf0]
      have := mul_le_mul_of_nonneg_left h.norm_le hf0
      simp only at this
      linarith

/-- A real value near the real part of a complex value. -/
def NearR (A : Arith) (b τ x y : ℝ) : Prop := ∃ (z : Flt A) (e : ℂ), Near A b τ (z, e) ∧ z.val.re = x ∧ e.re = y

theorem NearR.err {b τ x y : ℝ} (h : NearR A b τ x y) : |x - y| ≤ (Real.exp (τ * A.u) - 1) * b := by
  obtain ⟨z, e, h1, rfl, rfl⟩ := h
  rw [← Complex.sub_re]
  exact (Complex.abs_re_le_norm _).trans h1.2.2

theorem NearR.end {count : Int} (hc : 0 < count) (s : Scaling) {b τ x y : ℝ} (h : NearR A b τ x y) :
    NearR A (s.factor count * b) (τ + 6) (endR A s count x) (s.factor count * y) := by
  obtain ⟨z, e, h1, rfl, rfl⟩ := h
  refine ⟨_, _, near_end hc s h1, ?_, ?_⟩
  · unfold endC endR
    split <;> rfl
  · rw [Complex.re_ofReal_mul]

/-! ## The complex-to-real lines -/

theorem near_conj {b τ : ℝ} {x : Flt A} {z : ℂ} (h : Near A b τ (x, z)) : Near A b τ ((stockNumbers A).conj x, starRingEnd ℂ z) := by
  refine ⟨h.1, ?_, ?_⟩
  · rw [show ‖((stockNumbers A).conj x, starRingEnd ℂ z).2‖ = ‖z‖ from RCLike.norm_conj z]
    exact h.2.1
  · have : ((stockNumbers A).conj x).val = starRingEnd ℂ x.val := rfl
    simp only
    rw [this, ← map_sub, RCLike.norm_conj]
    exact h.2.2

theorem near_input {v : List (Flt A)} {w : List ℂ} {b : Nat → ℝ} {τ : ℝ} (hn : 1 ≤ n) (hb : ∀ j ≤ n / 2, Near A (b j) τ (v.getD j 0, w.getD j 0))
    (inp : Arr (Flt A)) (inp' : Arr ℂ) {k : Nat} (hk : k < n) : Near A (b (min k (n - k))) τ ((stockNumbers A).input n v inp k, c2rInput n w inp' k) := by
  have key : ∀ m ≤ n / 2, ∀ k, k < n → (k ≤ m ∨ n ≤ k + m) → Near A (b (min k (n - k))) τ
      (forRange 1 m ((stockNumbers A).step n v) (st inp 0 (v.getD 0 0)) k, forRange 1 m (c2rStep n w) (st inp' 0 (w.getD 0 0)) k) := by
    intro m
    induction m with
    | zero =>
      intro _ k hk h
      have : k = 0 := by omega
      subst this
      simp only [forRange, st_same, Nat.zero_min]
      exact hb 0 (by omega)
    | succ m ih =>
      intro hm k hk h
      rw [forRange, forRange]
      unfold Numbers.step c2rStep
      dsimp only
      rw [st_same, st_same]
      by_cases h1 : k = n - (1 + m)
      · rw [h1, st_same, st_same, show min (n - (1 + m)) (n - (n - (1 + m))) = 1 + m by omega]
        exact near_conj (hb (1 + m) (by omega))
      rw [st_ne _ _ h1, st_ne _ _ h1]
      by_cases h2 : k = 1 + m
      · rw [h2, st_same, st_same, show min (1 + m) (n - (1 + m)) = 1 + m by omega]
        exact hb (1 + m) (by omega)
      rw [st_ne _ _ h2, st_ne _ _ h2]
      exact ih (by omega) k hk (by omega)
  exact key _ (by omega) k hk (by omega)

theorem sum_twice {n : Nat} (hn : 1 ≤ n) {b : Nat → ℝ} (hb : ∀ j ≤ n / 2, 0 ≤ b j) :
    ∑ k ∈ range n, b (min k (n - k)) ≤ 2 * ∑ j ∈ range (n / 2 + 1), b j := by
  obtain ⟨r, hr⟩ : ∃ r, n = n / 2 + 1 + r := ⟨n - n / 2 - 1, by omega⟩
  set h := n / 2 + 1 with hh
  rw [two_mul]
  conv_lhs => rw [hr]
  rw [sum_range_add]
  refine add_le_add (le_of_eq (sum_congr rfl fun k hk => ?_)) ?_
  · rw [mem_range] at hk
    congr 1
    omega
  · have e : ∑ x ∈ range r, b (min (h + x) (h + r - (h + x))) = ∑ x ∈ range r, b (x + 1) := by
      rw [← sum_range_reflect]
      refine sum_congr rfl fun k hk => ?_
      rw [mem_range] at hk
      congr 1
      omega
    rw [e]
    have h1 : ∑ x ∈ range r, b (x + 1) ≤ ∑ x ∈ range (r + 1), b x := by
      rw [sum_range_succ']
      linarith [hb 0 (by omega)]
    refine h1.trans (sum_le_sum_of_subset_of_nonneg (range_mono (by omega)) fun j hj _ => hb j ?_)
    rw [mem_range] at hj
    omega

theorem near_c2r (h : Smooth q n) {v : List (Flt A)} {w : List ℂ} {b : Nat → ℝ} {τ : ℝ} (hb : ∀ j ≤ n / 2, Near A (b j) τ (v.getD j 0, w.getD j 0))
    {k : Nat} (hk : k < n) : NearR A (2 * ∑ j ∈ range (n / 2 + 1), b j) (τ + 60 * q * (n - 1)) ((stockNumbers A).c2r n v k) (c2r n w k) := by
  have h1 := near_line (A := A) (fwd := false) h (v := (List.range n).map ((stockNumbers A).input n v fun _ => 0))
    (w := (List.range n).map (c2rInput n w fun _ => 0)) (by simp) (by simp) (b := fun k => b (min k (n - k))) (τ := τ) (fun j hj => by
      rw [getD_range_map _ _ hj, getD_range_map _ _ hj]
      exact near_input h.pos hb _ _ hj) hk
  exact ⟨_, _, h1.mono (sum_twice h.pos fun j hj => (hb j hj).size) le_rfl, rfl, c2rInput_c2r h.pos w _ k⟩

end
end Verif
