import Verif.R2RLemmas
import Verif.StockCalls

/-!
# The calls of the sine and cosine transforms
-/

namespace Verif
open Finset Stock

/-! ## The transforms are linear -/

theorem trigOf_congr (z : Trig) (fwd : Bool) {n : Nat} (hn : z.least ≤ n) {x y : Nat → ℝ} (h : ∀ j < n, x j = y j) (k : Nat) :
    trigOf z fwd n x k = trigOf z fwd n y k := by
  have hn1 : 1 ≤ n := le_trans (by cases z <;> decide) hn
  have h0 := h 0 hn1
  have hl := h (n - 1) (by omega)
  have e10 : redft10 n x k = redft10 n y k := by
    unfold redft10
    congr 1
    exact sum_congr rfl fun j hj => by rw [h j (mem_range.1 hj)]
  have e01 : redft01 n x k = redft01 n y k := by
    unfold redft01
    rw [h0]
    congr 2
    exact sum_congr rfl fun j hj => by rw [h (j + 1) (by have := mem_range.1 hj; omega)]
  have o10 : rodft10 n x k = rodft10 n y k := by
    unfold rodft10
    congr 1
    exact sum_congr rfl fun j hj => by rw [h j (mem_range.1 hj)]
  have o01 : rodft01 n x k = rodft01 n y k := by
    unfold rodft01
    rw [hl]
    congr 2
    exact sum_congr rfl fun j hj => by rw [h j (by have := mem_range.1 hj; omega)]
  have e00 : redft00 n x k = redft00 n y k := by
    unfold redft00
    rw [h0, hl]
    congr 2
    exact sum_congr rfl fun j hj => by rw [h (j + 1) (by have := mem_range.1 hj; omega)]
  cases z <;> cases fwd <;> simp only [trigOf]
  · rw [e01]
  · rw [e10]
  · rw [o01]
  · rw [o10]
  · rw [e00]
  · rw [e00]

theorem sum_lin (s : Finset Nat) (a b : ℝ) (x y c : Nat → ℝ) :
    ∑ j ∈ s, (a * x j + b * y j) * c j = a * ∑ j ∈ s, x j * c j + b * ∑ j ∈ s, y j * c j := by
  rw [Finset.mul_sum, Finset.mul_sum, ← sum_add_distrib]
  exact sum_congr rfl fun j _ => by ring

theorem trigOf_lin (z : Trig) (fwd : Bool) (n : Nat) (a b : ℝ) (x y : Nat → ℝ) (k : Nat) :
    trigOf z fwd n (fun j => a * x j + b * y j) k = a * trigOf z fwd n x k + b * trigOf z fwd n y k := by
  have e10 : redft10 n (fun j => a * x j + b * y j) k = a * redft10 n x k + b * redft10 n y k := by
    unfold redft10; rw [sum_lin]; ring
  have e01 : redft01 n (fun j => a * x j + b * y j) k = a * redft01 n x k + b * redft01 n y k := by
    unfold redft01; rw [sum_lin _ _ _ (fun j => x (j + 1)) (fun j => y (j + 1))]; ring
  have o10 : rodft10 n (fun j => a * x j + b * y j) k = a * rodft10 n x k + b * rodft10 n y k := by
    unfold rodft10; rw [sum_lin]; ring
  have o01 : rodft01 n (fun j => a * x j + b * y j) k = a * rodft01 n x k + b * rodft01 n y k := by
    unfold rodft01; rw [sum_lin]; ring
  have e00 : redft00 n (fun j => a * x j + b * y j) k = a * redft00 n x k + b * redft00 n y k := by
    unfold redft00; rw [sum_lin _ _ _ (fun j => x (j + 1)) (fun j => y (j + 1))]; ring
  cases z <;> cases fwd <;> simp only [trigOf]
  · rw [e01]; ring
  · rw [e10]
  · rw [o01]; ring
  · rw [o10]
  · rw [e00]; ring
  · rw [e00]

/-- The transform is the sum of the entries times their weights. -/
theorem trigOf_weight (z : Trig) (fwd : Bool) {n : Nat} (hn : z.least ≤ n) (x : Nat → ℝ) (k : Nat) :
    trigOf z fwd n x k = ∑ j ∈ range n, x j * weight z fwd n j k := by
  have zero : trigOf z fwd n (fun _ => 0) k = 0 := by
    have := trigOf_lin z fwd n 0 0 (fun _ => 0) (fun _ => 0) k
    simpa using this
  have key : ∀ m, trigOf z fwd n (fun i => if i < m then x i else 0) k = ∑ j ∈ range m, x j * weight z fwd n j k := by
    intro m
    induction m with
    | zero => simpa using zero
    | succ m ih =>
      rw [sum_range_succ, ← ih]
      unfold weight
      have := trigOf_lin z fwd n 1 (x m) (fun i => if i < m then x i else 0) (fun i => if i = m then 1 else 0) k
      rw [one_mul] at this
      rw [← this]
      congr 1
      funext i
      by_cases h1 : i < m
      · rw [if_pos h1, if_pos (by omega), if_neg (by omega)]; ring
      · by_cases h2 : i = m
        · subst h2; rw [if_neg h1, if_pos (by omega), if_pos rfl]; ring
        · rw [if_neg h1, if_neg (by omega), if_neg h2]; ring
  rw [← key n]
  exact trigOf_congr z fwd hn (fun j hj => by rw [if_pos hj]) k

/-! ## One executor -/

/-- The arithmetic of the sine and cosine transforms of the stock backend; `K` is the arithmetic of its Fourier transforms, `ws` is what
the workspace of the executors holds before. -/
noncomputable def trigKernel {C : Type} (K : Kernel C ℝ) (ws : Tag → List ℝ) : Kernel ℝ Unit where
  lanes := K.lanes
  line := fun _ _ _ _ _ => .error .ub
  fromReal := fun _ _ _ _ => .error .ub
  toReal := fun _ _ _ _ => .error .ub
  cast := fun _ => 0
  re := fun _ => ()
  parts := fun _ => ((), ())
  join := fun _ _ => 0
  trig := fun tag fwd z b d base mem => runR2R K tag z fwd b d base (ws tag) mem

theorem offset_first {b : Box} (ho : IsOrder b.order) {p : A3 Int} (hp : p ∈ b) :
    ∃ c, 0 ≤ c ∧ c < numLines b ∧ ∀ v, b.offset (p.set (b.order 0) (b.low.get (b.order 0) + v)) = c * b.osize 0 + v := by
  have hd := fun e => Box.mem_def.1 hp e
  obtain ⟨o1, o2, o3⟩ := ho
  have h1 := hd b.order.y
  have h2 := hd b.order.z
  have s : ∀ e, b.size e = b.high.get e - b.low.get e + 1 := fun e => Box.size_get b e
  refine ⟨(p.get b.order.z - b.low.get b.order.z) * b.osize 1 + (p.get b.order.y - b.low.get b.order.y), ?_, ?_, ?_⟩
  · have : 0 ≤ (p.get b.order.z - b.low.get b.order.z) * b.osize 1 := by
      apply mul_nonneg (by omega)
      show 0 ≤ b.size b.order.y
      rw [s]; omega
    omega
  · unfold numLines
    show _ < b.size b.order.y * b.size b.order.z
    have : (p.get b.order.z - b.low.get b.order.z + 1) * b.size b.order.y ≤ b.size b.order.z * b.size b.order.y := by
      apply mul_le_mul_of_nonneg_right
      · rw [s]; omega
      · rw [s]; omega
    have e := s b.order.y
    show (p.get b.order.z - b.low.get b.order.z) * b.size b.order.y + _ < _
    rw [mul_comm (b.size b.order.y)]
    rw [add_mul, one_mul] at this
    omega
  · intro v
    show b.offset (p.set b.order.x (b.low.get b.order.x + v)) = _
    unfold Box.offset
    simp only
    change (((p.set b.order.x _).get b.order.z - _) * _ + ((p.set b.order.x _).get b.order.y - _)) * _ + ((p.set b.order.x _).get b.order.x - _) = _
    rw [A3.get_set_self, A3.get_set_ne _ _ (by first | exact fun e => o2 e.symm | exact fun e => o3 e.symm | exact fun e => o1 e.symm | exact fun e => o2 e | exact fun e => o3 e | exact fun e => o1 e),
      A3.get_set_ne _ _ (by first | exact fun e => o2 e.symm | exact fun e => o3 e.symm | exact fun e => o1 e.symm | exact fun e => o2 e | exact fun e => o3 e | exact fun e => o1 e)]
    show _ = ((p.get b.order.z - b.low.get b.order.z) * b.size b.order.y + (p.get b.order.y - b.low.get b.order.y)) * b.size b.order.x + v
    rw [s, s]
    ring

theorem count_lines {b : Box} (ho : IsOrder b.order) (hb : b.empty = false) : b.count = numLines b * b.osize 0 := by
  rw [Box.count_osize ho hb]; unfold numLines; ring

section
variable {C : Type} {K : Kernel C ℝ} {good : Nat → Prop} {z : Trig} {b w : Box} {tag : Tag} {ws : Tag → List ℝ} {data : List ℝ} {base : Int} {G : A3 Int → ℝ}

/-- An array whose lines are transformed. -/
theorem holds_of_any {r : List ℝ} (ho : IsOrder b.order) (hb : b.empty = false) {T : List ℝ → Nat → ℝ} (hG : Holds b data base G)
    (r3 : ∀ c, 0 ≤ c → c < numLines b → ∀ k < (b.osize 0).toNat, rd r (base + c * b.osize 0 + (k : Nat)) =
      some (T ((List.range (b.osize 0).toNat).map fun k : Nat => (rd data (base + c * b.osize 0 + (k : Nat))).getD 0) k)) :
    Holds b r base (along b (b.order 0) T G) := by
  have p0 := osize_pos hb 0
  intro p hp'
  obtain ⟨c, c0, c1, c2⟩ := offset_first ho hp'
  have hd := Box.mem_def.1 hp' (b.order 0)
  have hsz : b.osize 0 = b.high.get (b.order 0) - b.low.get (b.order 0) + 1 := Box.size_get b (b.order 0)
  obtain ⟨k, hk⟩ : ∃ k : Nat, p.get (b.order 0) = b.low.get (b.order 0) + k := ⟨(p.get (b.order 0) - b.low.get (b.order 0)).toNat, by omega⟩
  have hpk : p.set (b.order 0) (b.low.get (b.order 0) + k) = p := by
    rw [← hk]
    apply A3.ext'
    intro e
    by_cases he : e = b.order 0
    · rw [he, A3.get_set_self]
    · rw [A3.get_set_ne _ _ he]
  have hoff := c2 k
  rw [hpk] at hoff
  have := r3 c c0 c1 k (by omega)
  rw [hoff, ← add_assoc, this]
  congr 1
  unfold along
  have hkk : (p (b.order 0) - b.low (b.order 0)).toNat = k := by
    show (p.get (b.order 0) - b.low.get (b.order 0)).toNat = k
    omega
  rw [hkk]
  congr 1
  unfold lineOf
  rw [show (b.osize 0).toNat = (b.high.get (b.order 0) - b.low.get (b.order 0) + 1).toNat by rw [hsz]]
  refine List.map_congr_left fun j hj => ?_
  rw [List.mem_range] at hj
  have hin : p.set (b.order 0) (b.low.get (b.order 0) + j) ∈ b := by
    rw [Box.mem_def]
    intro e
    by_cases he : e = b.order 0
    · rw [he, A3.get_set_self]; omega
    · rw [A3.get_set_ne _ _ he]; exact Box.mem_def.1 hp' e
  have hv := hG _ hin
  rw [c2 j, ← add_assoc] at hv
  rw [hv]
  rfl

theorem holds_of_lines {r : List ℝ} (ho : IsOrder b.order) (hb : b.empty = false) (hn : z.least ≤ (b.osize 0).toNat) (fwd : Bool) (hG : Holds b data base G)
    (r3 : ∀ c, 0 ≤ c → c < numLines b → ∀ k < (b.osize 0).toNat, rd r (base + c * b.osize 0 + (k : Nat)) =
      some (trigOf z fwd (b.osize 0).toNat (fun k => (rd data (base + c * b.osize 0 + (k : Nat))).getD 0) k)) :
    Holds b r base (along b (b.order 0) (trig z fwd) G) := by
  refine holds_of_any ho hb hG fun c c0 c1 k hk => ?_
  rw [r3 c c0 c1 k hk]
  unfold trig
  rw [List.length_map, List.length_range]
  congr 1
  exact trigOf_congr z fwd hn (fun j hj => by rw [getD_range_map _ _ hj]) k

/-- The executor transforms all the lines, if the direction is the fastest one of the box. -/
theorem runR2R_any {ws : List ℝ} {fft : Bool → List C → Nat → C} {r2c : List ℝ → Nat → C} {c2r : Nat → List C → Nat → ℝ} (hK : KernelOk K good fft r2c c2r)
    (ho : IsOrder b.order) (hb : b.empty = false) (hn : z.least ≤ (b.osize 0).toNat) (hg : good (z.gain (b.osize 0).toNat)) (fwd : Bool) {need : Int}
    (hneed : workspaceR2R z b (b.order 0) = .ok need) (hws : need ≤ ws.length) (hG : Holds b data base G)
    (h0 : 0 ≤ base) (hlen : base + b.count ≤ data.length) :
    ∃ r, runR2R K tag z fwd b (b.order 0) base ws data = .ok r ∧ r.length = data.length ∧
      Holds b r base (along b (b.order 0) (K.trigLine r2c c2r z fwd) G) ∧ ∀ a, (a < base ∨ base + b.count ≤ a) → rd r a = rd data a := by
  have hcount := count_lines ho hb
  rw [hcount] at hlen ⊢
  have p0 := osize_pos hb 0
  have hdata : ∀ c, 0 ≤ c → c < numLines b → ∀ k < (b.osize 0).toNat, rd data (base + c * b.osize 0 + (k : Nat)) =
      some (((rd data (base + c * b.osize 0 + (k : Nat)))).getD 0) := by
    intro c hc0 hc1 k hk
    have h1 : (c + 1) * b.osize 0 ≤ numLines b * b.osize 0 := mul_le_mul_of_nonneg_right (by omega) p0.le
    have h2 : 0 ≤ c * b.osize 0 := mul_nonneg hc0 p0.le
    rw [add_mul, one_mul] at h1
    unfold rd
    rw [if_pos (by omega), List.getElem?_eq_getElem (by omega)]
    rfl
  obtain ⟨r, r1, r2, r3, r4⟩ := runR2R_lines (tag := tag) (ws := ws) (x := fun c k => (rd data (base + c * b.osize 0 + (k : Nat))).getD 0) hK ho hb hn hg fwd hneed hws hdata h0 hlen
  exact ⟨r, r1, r2, holds_of_any ho hb hG r3, r4⟩

theorem does_any {fft : Bool → List C → Nat → C} {r2c : List ℝ → Nat → C} {c2r : Nat → List C → Nat → ℝ} (hK : KernelOk K good fft r2c c2r)
    (ho : IsOrder b.order) (hb : b.empty = false) {d : Fin 3} (hd : b.order 0 = d) (hs : Spans b w d) (hn : z.least ≤ (b.size d).toNat)
    (hg : good (z.gain (b.size d).toNat)) {rk : Nat}
    (hws : ∀ tag need, tag.rank = rk → workspaceR2R z b d = .ok need → need ≤ (ws tag).length) :
    Does (trigKernel K ws) rk w (K.trigLine r2c c2r z) (.trig z b d) b [d] := by
  subst hd
  refine ⟨rfl, rfl, fun _ _ _ _ _ => rfl, fun _ _ _ _ _ => rfl, fun tag fwd base l G hr h0 hlen hG => ?_⟩
  have hneed := workspaceR2R_eq ho hb hn
  obtain ⟨r, r1, r2, r3, r4⟩ := runR2R_any (tag := tag) hK ho hb hn hg fwd hneed (hws tag _ hr hneed) hG h0 hlen
  refine ⟨r, r1, r2, ?_, r4⟩
  rw [along_world hs] at r3
  exact r3

/-- Exact arithmetic. -/
theorem runR2R_holds {K : Kernel ℂ ℝ} {ws : List ℝ} (hK : KernelOk K good dft r2c c2r) (hp : ∀ c, K.parts c = (c.re, c.im)) (hj : ∀ a b, K.join a b = ⟨a, b⟩)
    (ho : IsOrder b.order) (hb : b.empty = false) (hn : z.least ≤ (b.osize 0).toNat) (hg : good (z.gain (b.osize 0).toNat)) (fwd : Bool) {need : Int}
    (hneed : workspaceR2R z b (b.order 0) = .ok need) (hws : need ≤ ws.length) (hG : Holds b data base G)
    (h0 : 0 ≤ base) (hlen : base + b.count ≤ data.length) :
    ∃ r, runR2R K tag z fwd b (b.order 0) base ws data = .ok r ∧ r.length = data.length ∧
      Holds b r base (along b (b.order 0) (trig z fwd) G) ∧ ∀ a, (a < base ∨ base + b.count ≤ a) → rd r a = rd data a := by
  obtain ⟨r, r1, r2, r3, r4⟩ := runR2R_any (tag := tag) hK ho hb hn hg fwd hneed hws hG h0 hlen
  refine ⟨r, r1, r2, fun p hp' => ?_, r4⟩
  rw [r3 p hp']
  congr 1
  unfold along trig
  have hd := Box.mem_def.1 hp' (b.order 0)
  have hsz : b.osize 0 = b.high.get (b.order 0) - b.low.get (b.order 0) + 1 := Box.size_get b (b.order 0)
  rw [lineOf_length, show (b.size (b.order 0)).toNat = (b.osize 0).toNat from rfl]
  unfold lineOf
  rw [show (b.high.get (b.order 0) - b.low.get (b.order 0) + 1).toNat = (b.osize 0).toNat by rw [hsz],
    trigLine_exact hp hj z fwd hn (by change (p.get (b.order 0) - b.low.get (b.order 0)).toNat < _; omega)]
  exact trigOf_congr z fwd hn (fun j hj' => by rw [getD_range_map _ _ hj']) _

theorem does_trig {K : Kernel ℂ ℝ} (hK : KernelOk K good dft r2c c2r) (hp : ∀ c, K.parts c = (c.re, c.im)) (hj : ∀ a b, K.join a b = ⟨a, b⟩)
    (ho : IsOrder b.order) (hb : b.empty = false) {d : Fin 3} (hd : b.order 0 = d) (hs : Spans b w d) (hn : z.least ≤ (b.size d).toNat)
    (hg : good (z.gain (b.size d).toNat)) {rk : Nat}
    (hws : ∀ tag need, tag.rank = rk → workspaceR2R z b d = .ok need → need ≤ (ws tag).length) :
    Does (trigKernel K ws) rk w (trig z) (.trig z b d) b [d] := by
  subst hd
  refine ⟨rfl, rfl, fun _ _ _ _ _ => rfl, fun _ _ _ _ _ => rfl, fun tag fwd base l G hr h0 hlen hG => ?_⟩
  have hneed := workspaceR2R_eq ho hb hn
  obtain ⟨r, r1, r2, r3, r4⟩ := runR2R_holds (tag := tag) hK hp hj ho hb hn hg fwd hneed (hws tag _ hr hneed) hG h0 hlen
  refine ⟨r, r1, r2, ?_, r4⟩
  rw [along_world hs] at r3
  exact r3

end

/-! ## Three dimensions -/

theorem along_trig (z : Trig) (fwd : Bool) (w : Box) (d : Fin 3) (hn : z.least ≤ w.extent d) (G : A3 Int → ℝ) (p : A3 Int) :
    along w d (trig z fwd) G p = ∑ i ∈ range (w.extent d), G (p.set d (w.low.get d + i)) * weight z fwd (w.extent d) i (w.rel p d) := by
  unfold along trig
  rw [lineOf_length, ← extent_eq, trigOf_weight z fwd hn]
  refine sum_congr rfl fun i hi => ?_
  rw [mem_range] at hi
  congr 1
  unfold lineOf
  rw [getD_range_map _ _ (show i < (w.high.get d - w.low.get d + 1).toNat from hi)]

theorem place_rel (w : Box) {a b c : Fin 3} (h : AllDirs a b c) (p : A3 Int) (i j k : Nat) :
    w.rel (place w a b c p i j k) a = i ∧ w.rel (place w a b c p i j k) b = j ∧ w.rel (place w a b c p i j k) c = k := by
  refine ⟨?_, ?_, ?_⟩
  · unfold Box.rel; rw [place_a]; omega
  · unfold Box.rel; rw [place_b w h]; omega
  · unfold Box.rel; rw [place_c w h]; omega

/-- The transforms of the lines in all three directions, in any order. -/
theorem alongAll_trig3 (z : Trig) (fwd : Bool) (w : Box) (hn : ∀ d, z.least ≤ w.extent d) {a b c : Fin 3} (h : AllDirs a b c) (G : A3 Int → ℝ) :
    alongAll w (trig z fwd) [a, b, c] G = trig3 z fwd w G := by
  funext p
  show along w c (trig z fwd) (along w b (trig z fwd) (along w a (trig z fwd) G)) p = _
  unfold trig3
  rw [sum_points w h p, along_trig z fwd w c (hn c)]
  refine sum_congr rfl fun k hk => ?_
  rw [along_trig z fwd w b (hn b), sum_mul]
  refine sum_congr rfl fun j hj => ?_
  rw [along_trig z fwd w a (hn a), sum_mul, sum_mul]
  refine sum_congr rfl fun i hi => ?_
  rw [prod_dirs h]
  obtain ⟨ra, rb, rc⟩ := place_rel w h p i j k
  obtain ⟨h1, h2, h3⟩ := h
  rw [ra, rb, rc, rel_set_ne _ _ _ (by first | exact h1 | exact h2), rel_set_ne _ _ _ (by first | exact h2 | exact h3), rel_set_ne _ _ _ (by first | exact h3 | exact h2)]
  show G (place w a b c p i j k) * _ * _ * _ = _
  ring

/-- The weights of a forward and of a backward transform. -/
theorem weight_inv (z : Trig) {n i j : Nat} (hn : z.least ≤ n) (hj : j < n) :
    ∑ k ∈ range n, weight z true n i k * weight z false n k j = if i = j then (z.gain n : ℝ) else 0 := by
  have := trig_inv z hn hj fun m => if m = i then 1 else 0
  rw [trigOf_weight z false hn] at this
  rw [show (∑ k ∈ range n, weight z true n i k * weight z false n k j) = _ from this]
  by_cases h : i = j
  · rw [if_pos h.symm, if_pos h, mul_one]
  · rw [if_neg (fun h' => h h'.symm), if_neg h, mul_zero]

theorem sum_three_real (s t u : Finset Nat) (A B C : Nat → ℝ) :
    ∑ k ∈ s, ∑ j ∈ t, ∑ i ∈ u, A i * (B j * C k) = (∑ i ∈ u, A i) * ((∑ j ∈ t, B j) * ∑ k ∈ s, C k) := by
  rw [Finset.mul_sum, Finset.mul_sum]
  refine sum_congr rfl fun k _ => ?_
  rw [show (∑ j ∈ t, B j) * C k = ∑ j ∈ t, B j * C k from sum_mul _ _ _, Finset.mul_sum]
  refine sum_congr rfl fun j _ => ?_
  rw [sum_mul]

/-- The factor of a forward and a backward transform in three dimensions. -/
def Trig.gain3 (z : Trig) (w : Box) : Nat := z.gain (w.extent 0) * z.gain (w.extent 1) * z.gain (w.extent 2)

theorem trig3_inv (z : Trig) (w : Box) (hn : ∀ d, z.least ≤ w.extent d) (G : A3 Int → ℝ) {p : A3 Int} (hp : p ∈ w) :
    trig3 z false w (trig3 z true w G) p = z.gain3 w * G p := by
  have hmem : ∀ q, q ∈ w → ∀ d, w.low.get d ≤ q.get d ∧ q.get d ≤ w.high.get d := fun q hq d => Box.mem_def.1 hq d
  let wt : Bool → A3 Int → A3 Int → ℝ := fun fwd q p => ∏ d : Fin 3, weight z fwd (w.extent d) (w.rel q d) (w.rel p d)
  have orth : ∀ s ∈ w.points, ∑ q ∈ w.points, wt true s q * wt false q p = if s = p then (z.gain3 w : ℝ) else 0 := by
    intro s hs
    rw [Box.mem_points] at hs
    have hA : AllDirs 0 1 2 := ⟨by decide, by decide, by decide⟩
    have e1 : ∀ k i j : Nat, wt true s (place w 0 1 2 p i j k) * wt false (place w 0 1 2 p i j k) p =
        (weight z true (w.extent 0) (w.rel s 0) i * weight z false (w.extent 0) i (w.rel p 0)) *
        ((weight z true (w.extent 1) (w.rel s 1) j * weight z false (w.extent 1) j (w.rel p 1)) *
        (weight z true (w.extent 2) (w.rel s 2) k * weight z false (w.extent 2) k (w.rel p 2))) := by
      intro k i j
      obtain ⟨ra, rb, rc⟩ := place_rel w hA p i j k
      simp only [wt]
      rw [Fin.prod_univ_three, Fin.prod_univ_three, ra, rb, rc]
      ring
    rw [sum_points w hA p]
    simp only [e1]
    have one : ∀ d : Fin 3, ∑ i ∈ range (w.extent d), weight z true (w.extent d) (w.rel s d) i * weight z false (w.extent d) i (w.rel p d) =
        if s.get d = p.get d then (z.gain (w.extent d) : ℝ) else 0 := by
      intro d
      have h1 := hmem s hs d
      have h2 := hmem p hp d
      rw [weight_inv z (hn d) (by unfold Box.extent Box.rel; omega)]
      congr 1
      unfold Box.rel
      rw [eq_iff_iff]
      omega
    rw [sum_three_real, one, one, one]
    by_cases hsp : s = p
    · subst hsp
      simp only [if_true]
      unfold Trig.gain3
      push_cast; ring
    · rw [if_neg hsp]
      have : ∃ d, s.get d ≠ p.get d := by
        by_contra hc
        push Not at hc
        exact hsp (A3.ext' hc)
      obtain ⟨d, hd⟩ := this
      match d with
      | 0 => rw [if_neg hd]; ring
      | 1 => rw [if_neg (c := s.get 1 = p.get 1) hd]; ring
      | 2 => rw [if_neg (c := s.get 2 = p.get 2) hd]; ring
  show ∑ q ∈ w.points, (∑ s ∈ w.points, G s * wt true s q) * wt false q p = _
  calc ∑ q ∈ w.points, (∑ s ∈ w.points, G s * wt true s q) * wt false q p
      = ∑ q ∈ w.points, ∑ s ∈ w.points, G s * (wt true s q * wt false q p) := by
        refine sum_congr rfl fun q _ => ?_
        rw [sum_mul]
        exact sum_congr rfl fun s _ => by ring
    _ = ∑ s ∈ w.points, G s * ∑ q ∈ w.points, wt true s q * wt false q p := by
        rw [sum_comm]
        exact sum_congr rfl fun s _ => (Finset.mul_sum _ _ _).symm
    _ = ∑ s ∈ w.points, G s * (if s = p then (z.gain3 w : ℝ) else 0) := sum_congr rfl fun s hs => by rw [orth s hs]
    _ = z.gain3 w * G p := by
        rw [sum_eq_single p]
        · rw [if_pos rfl]; ring
        · intro s _ hne; rw [if_neg hne, mul_zero]
        · intro hn; exact absurd (Box.mem_points.2 hp) hn

theorem chain_trig3 {wi : Box} {dirs : A3 (Fin 3)} (h : AllDirs dirs.x dirs.y dirs.z) (z : Trig) (hn : ∀ d, z.least ≤ wi.extent d) (fwd : Bool)
    (c : Nat → A3 Int → ℝ) : chain wi (trig z fwd) (fun x => [dirs x]) fwd c 3 = fun j => trig3 z fwd wi (c j) := by
  funext j
  cases fwd with
  | true => exact alongAll_trig3 z true wi hn h (c j)
  | false => exact alongAll_trig3 z false wi hn h.rev (c j)

end Verif
