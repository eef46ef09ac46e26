import Verif.TransformInt
import Verif.ReshapeIntMain
import Verif.Calls

/-!
# The executors in machine integers agree with the ones in unbounded integers
-/

namespace Verif

theorem fitsInt_of {x : Int} (h0 : 0 ≤ x) (h1 : x < 2 ^ 31) : fitsInt x = true := IndexType.fits_of h0 h1

/-- A box that fits: `w` more entries and two can be counted in an `int`. -/
structure BoxFits (w : Nat) (b : Box) : Prop where
  order : IsOrder b.order
  some : b.empty = false
  count : b.count + w + 2 < 2 ^ 31

/-- Products of some of three factors. -/
theorem products_le {a b c : Int} (ha : 0 < a) (hb : 0 < b) (hc : 0 < c) :
    a ≤ c * b * a ∧ b ≤ c * b * a ∧ c ≤ c * b * a ∧ a * b ≤ c * b * a ∧ b * c ≤ c * b * a ∧ a * c ≤ c * b * a := by
  have h1 : 0 < a * b := mul_pos ha hb
  have h2 : 0 < b * c := mul_pos hb hc
  have h3 : 0 < a * c := mul_pos ha hc
  have e1 : c * b * a = a * b * c := by ring
  have e2 : c * b * a = b * c * a := by ring
  have e3 : c * b * a = a * c * b := by ring
  have g1 : a * b ≤ c * b * a := by rw [e1]; exact le_mul_of_one_le_right h1.le hc
  have g2 : b * c ≤ c * b * a := by rw [e2]; exact le_mul_of_one_le_right h2.le ha
  have g3 : a * c ≤ c * b * a := by rw [e3]; exact le_mul_of_one_le_right h3.le hb
  have k1 : a ≤ a * b := le_mul_of_one_le_right ha.le hb
  have k2 : b ≤ b * c := le_mul_of_one_le_right hb.le hc
  have k3 : c ≤ a * c := le_mul_of_one_le_left hc.le ha
  exact ⟨by omega, by omega, by omega, g1, g2, g3⟩

section
variable {w : Nat} {b : Box} (h : BoxFits w b)
include h

theorem BoxFits.sizes : (∀ i, 0 < b.osize i) ∧ (∀ i, b.osize i ≤ b.count) ∧ b.osize 0 * b.osize 1 ≤ b.count ∧
    b.osize 1 * b.osize 2 ≤ b.count ∧ b.osize 0 * b.osize 2 ≤ b.count ∧ b.count = b.osize 2 * b.osize 1 * b.osize 0 := by
  have hp : ∀ i, 0 < b.osize i := fun i => by
    have := Box.empty_false_iff.1 h.some (b.order.get i)
    simp only [Box.osize, Box.size_get]; omega
  have e := Box.count_osize h.order h.some
  obtain ⟨q1, q2, q3, q4, q5, q6⟩ := products_le (hp 0) (hp 1) (hp 2)
  rw [← e] at q1 q2 q3 q4 q5 q6
  refine ⟨hp, ?_, q4, q5, q6, e⟩
  intro i
  fin_cases i <;> assumption

theorem BoxFits.size (d : Fin 3) : 0 < b.size d ∧ b.size d ≤ b.count := by
  obtain ⟨h1, h2, -⟩ := h.sizes
  obtain ⟨i, hi⟩ : ∃ i : Fin 3, b.order i = d := by
    rcases h.order.cases with ho | ho | ho | ho | ho | ho <;> rw [ho] <;> revert d <;> decide
  have a := h1 i
  have c := h2 i
  unfold Box.osize at a c
  rw [hi] at a c
  exact ⟨a, c⟩

theorem BoxFits.lt : b.count < 2 ^ 31 := by
  have := h.count
  omega

theorem BoxFits.howMany (t : IndexType) (d : Fin 3) : howManyM t b d = .ok (howMany b d) ∧ 0 ≤ Verif.howMany b d ∧ Verif.howMany b d ≤ b.count := by
  obtain ⟨h1, h2, h3, h4, -⟩ := h.sizes
  have a := h1 0; have b' := h1 1; have c := h1 2
  have := h2 0
  have hl := h.lt
  have m1 := mul_pos a b'
  have m2 := mul_pos b' c
  unfold howManyM Verif.howMany
  split_ifs
  · rw [IndexType.arith_of m2.le (by omega), res_bind, toInt32_of_lt m2.le (by omega)]
    exact ⟨rfl, m2.le, h4⟩
  · rw [toInt32_of_lt a.le (by omega)]
    exact ⟨rfl, a.le, this⟩
  · rw [IndexType.arith_of m1.le (by omega), res_bind, toInt32_of_lt m1.le (by omega)]
    exact ⟨rfl, m1.le, h3⟩

theorem BoxFits.stride (t : IndexType) (d : Fin 3) : lineStrideM t b d = .ok (lineStride b d) := by
  obtain ⟨h1, h2, h3, h4, -⟩ := h.sizes
  have a := h1 0; have b' := h1 1
  have := h2 0
  have hl := h.lt
  have m1 := mul_pos a b'
  unfold lineStrideM lineStride
  split_ifs
  · rfl
  · rw [toInt32_of_lt a.le (by omega)]
  · rw [IndexType.arith_of m1.le (by omega), res_bind, toInt32_of_lt m1.le (by omega)]

theorem BoxFits.blocks (d : Fin 3) : numBlocksM b d = numBlocks b d := by
  obtain ⟨h1, h2, -⟩ := h.sizes
  have := h1 2; have := h2 2
  have hl := h.lt
  unfold numBlocksM numBlocks
  rw [toInt32_of_lt (by omega) (by omega)]

/-- The members of the executor. -/
theorem BoxFits.lines (t : IndexType) (d : Fin 3) : linesM t b d = .ok
    ⟨b.size d, Verif.howMany b d, lineStride b d, numBlocks b d, if d = b.order 0 then b.size d else 1, if d = b.order 0 then b.size d else 1,
      b.osize 0 * b.osize 1, b.osize 0 * b.osize 1, b.count, b.count⟩ := by
  obtain ⟨h1, h2, h3, h4, -⟩ := h.sizes
  have m1 := mul_pos (h1 0) (h1 1)
  have hl := h.lt
  have hs := h.size d
  unfold linesM
  rw [(h.howMany t d).1, res_bind, h.stride t d, res_bind, IndexType.arith_of m1.le (by omega), res_bind, h.blocks d,
    toInt32_of_lt m1.le (by omega), toInt32_of_lt hs.1.le (by omega), toInt32_of_lt (Box.count_nonneg b) hl]

theorem BoxFits.r2cCount (d : Fin 3) : (b.r2c d).count ≤ b.count ∧ 0 ≤ (b.r2c d).count := by
  refine ⟨?_, Box.count_nonneg _⟩
  have he := h.some
  obtain ⟨-, -, g⟩ := r2c_fields he d
  have h0 := (h.size 0).1
  have h1 := (h.size 1).1
  have h2 := (h.size 2).1
  have e0 := g 0
  have e1 := g 1
  have e2 := g 2
  unfold Box.count
  rw [if_neg (by rw [r2c_empty, he]; decide), if_neg (by simp [he])]
  change (b.r2c d).size 0 = _ at e0
  change (b.r2c d).size 1 = _ at e1
  change (b.r2c d).size 2 = _ at e2
  have l0 : (b.r2c d).size 0 ≤ b.size 0 ∧ 0 ≤ (b.r2c d).size 0 := by
    rw [e0]; split_ifs with hd
    · subst hd; change b.size 0 / 2 + 1 ≤ b.size 0 ∧ 0 ≤ b.size 0 / 2 + 1; omega
    · exact ⟨le_rfl, h0.le⟩
  have l1 : (b.r2c d).size 1 ≤ b.size 1 ∧ 0 ≤ (b.r2c d).size 1 := by
    rw [e1]; split_ifs with hd
    · subst hd; change b.size 1 / 2 + 1 ≤ b.size 1 ∧ 0 ≤ b.size 1 / 2 + 1; omega
    · exact ⟨le_rfl, h1.le⟩
  have l2 : (b.r2c d).size 2 ≤ b.size 2 ∧ 0 ≤ (b.r2c d).size 2 := by
    rw [e2]; split_ifs with hd
    · subst hd; change b.size 2 / 2 + 1 ≤ b.size 2 ∧ 0 ≤ b.size 2 / 2 + 1; omega
    · exact ⟨le_rfl, h2.le⟩
  exact mul_le_mul (mul_le_mul l0.1 l1.1 l1.2 h0.le) l2.1 l2.2 (mul_nonneg h0.le h1.le)

theorem BoxFits.half : b.osize 0 * (b.osize 1 / 2 + 1) ≤ b.osize 0 * b.osize 1 ∧ 0 < b.osize 0 * (b.osize 1 / 2 + 1) := by
  obtain ⟨h1, -⟩ := h.sizes
  have a := h1 0; have c := h1 1
  exact ⟨mul_le_mul_of_nonneg_left (by omega) a.le, mul_pos a (by omega)⟩

/-- The members of the real-to-complex executor. -/
theorem BoxFits.linesR2C (t : IndexType) (d : Fin 3) : linesR2CM t b d = .ok
    ⟨b.size d, Verif.howMany b d, lineStride b d, numBlocks b d, if d = b.order 0 then b.size d else 1,
      if d = b.order 0 then b.size d / 2 + 1 else 1, b.osize 0 * b.osize 1, b.osize 0 * (b.osize 1 / 2 + 1), b.count, (b.r2c d).count⟩ := by
  obtain ⟨h1, h2, h3, h4, -⟩ := h.sizes
  have m1 := mul_pos (h1 0) (h1 1)
  have hl := h.lt
  have hs := h.size d
  obtain ⟨g1, g2⟩ := h.half
  obtain ⟨r1, r2⟩ := h.r2cCount d
  have o1 := h1 1
  have o1' := h2 1
  unfold linesR2CM
  rw [(h.howMany t d).1, res_bind, h.stride t d, res_bind, IndexType.arith_of m1.le (by omega), res_bind,
    IndexType.arith_of (x := b.osize 1 / 2 + 1) (by omega) (by have := h.count; omega), res_bind,
    IndexType.arith_of g2.le (by omega), res_bind, h.blocks d,
    toInt32_of_lt m1.le (by omega), toInt32_of_lt hs.1.le (by omega), toInt32_of_lt (Box.count_nonneg b) hl,
    toInt32_of_lt g2.le (by omega), toInt32_of_lt r2 (by omega)]
  by_cases hd : d = b.order 0
  · simp only [if_pos hd]
    rw [intArith_of (by omega) (by have := h.count; omega)]
    rfl
  · simp only [if_neg hd]
    rfl

omit h in
theorem entryFits_of {dist stride num n p i N : Int} (hd : 0 ≤ dist) (hs : 0 ≤ stride) (hp : 0 ≤ p ∧ p < num) (hi : 0 ≤ i ∧ i < n)
    (hN : (num - 1) * dist + (n - 1) * stride < N) (hN' : N ≤ 2 ^ 31) : entryFits dist stride p i = true := by
  have a1 : p * dist ≤ (num - 1) * dist := mul_le_mul_of_nonneg_right (by omega) hd
  have a2 : i * stride ≤ (n - 1) * stride := mul_le_mul_of_nonneg_right (by omega) hs
  have b1 : 0 ≤ p * dist := mul_nonneg hp.1 hd
  have b2 : 0 ≤ i * stride := mul_nonneg hi.1 hs
  unfold entryFits
  rw [fitsInt_of b1 (by omega), fitsInt_of b2 (by omega), fitsInt_of (by omega) (by omega)]
  rfl

theorem BoxFits.last (d : Fin 3) : 0 < lineStride b d ∧ (Verif.howMany b d - 1) * (if d = b.order 0 then b.size d else 1) + (b.size d - 1) * lineStride b d < b.count := by
  obtain ⟨h1, h2, h3, h4, h5, h6⟩ := h.sizes
  have a := h1 0; have b' := h1 1; have c := h1 2
  have m1 := mul_pos a b'
  by_cases d0 : d = b.order 0
  · have e : b.size d = b.osize 0 := by rw [d0]; rfl
    unfold Verif.howMany lineStride
    simp only [if_pos d0]
    rw [e, h6]
    refine ⟨by decide, ?_⟩
    have : (b.osize 1 * b.osize 2 - 1) * b.osize 0 + (b.osize 0 - 1) * 1 = b.osize 2 * b.osize 1 * b.osize 0 - 1 := by ring
    omega
  by_cases d1 : d = b.order 1
  · have e : b.size d = b.osize 1 := by rw [d1]; rfl
    unfold Verif.howMany lineStride
    simp only [if_neg d0, if_pos d1]
    rw [e]
    refine ⟨a, ?_⟩
    have : (b.osize 0 - 1) * 1 + (b.osize 1 - 1) * b.osize 0 = b.osize 0 * b.osize 1 - 1 := by ring
    omega
  · have e : b.size d = b.osize 2 := by
      have d2 : d = b.order 2 := by
        clear h1 h2 h3 h4 h5 h6 a b' c m1
        have := h.order
        revert d0 d1
        rcases this.cases with ho | ho | ho | ho | ho | ho <;> rw [ho] <;> revert d <;> decide
      rw [d2]; rfl
    unfold Verif.howMany lineStride
    simp only [if_neg d0, if_neg d1]
    rw [e, h6]
    refine ⟨m1, ?_⟩
    have : (b.osize 0 * b.osize 1 - 1) * 1 + (b.osize 2 - 1) * (b.osize 0 * b.osize 1) = b.osize 2 * b.osize 1 * b.osize 0 - 1 := by ring
    omega

theorem BoxFits.block (d : Fin 3) {i s : Int} (hi : i ∈ loop (numBlocks b d)) (h0 : 0 ≤ s) (hs : s ≤ b.osize 0 * b.osize 1) :
    fitsInt (i * s) = true := by
  obtain ⟨h1, h2, h3, h4, h5, h6⟩ := h.sizes
  have a := h1 0; have b' := h1 1; have c := h1 2
  have m1 := mul_pos a b'
  have hl := h.lt
  rw [mem_loop] at hi
  apply fitsInt_of (mul_nonneg hi.1 h0)
  unfold numBlocks at hi
  have e1 : i * s ≤ i * (b.osize 0 * b.osize 1) := mul_le_mul_of_nonneg_left hs hi.1
  have e2 : i * (b.osize 0 * b.osize 1) ≤ b.osize 2 * (b.osize 0 * b.osize 1) := by
    apply mul_le_mul_of_nonneg_right _ m1.le
    split_ifs at hi <;> omega
  have e3 : b.osize 2 * (b.osize 0 * b.osize 1) = b.osize 2 * b.osize 1 * b.osize 0 := by ring
  omega

theorem BoxFits.fitsC2C (M : Machine) (d : Fin 3) {l : LinesM} (hl : linesM M.index b d = .ok l) : l.fits M w l.size l.size = true := by
  rw [h.lines] at hl
  obtain rfl := Except.ok.inj hl
  obtain ⟨g1, g2⟩ := h.last d
  obtain ⟨-, n1, n2⟩ := h.howMany M.index d
  have hs := h.size d
  have hc := h.count
  obtain ⟨h1, -⟩ := h.sizes
  have m1 := mul_pos (h1 0) (h1 1)
  have hd : (0 : Int) ≤ if d = b.order 0 then b.size d else 1 := by split_ifs <;> omega
  unfold LinesM.fits
  simp only [Bool.and_eq_true, Bool.or_eq_true, decide_eq_true_eq, List.all_eq_true]
  refine ⟨⟨hs.1, fun i hi => ⟨h.block d hi m1.le le_rfl, h.block d hi m1.le le_rfl⟩⟩, .inr ⟨⟨fitsInt_of (by omega) (by omega), fitsInt_of (by omega) (by omega)⟩, ?_⟩⟩
  intro p hp
  rw [mem_loop] at hp
  have key : ∀ i ∈ loop (b.size d), entryFits (if d = b.order 0 then b.size d else 1) (lineStride b d) p i = true := fun i hi => by
    rw [mem_loop] at hi
    exact entryFits_of hd g1.le hp hi g2 (by omega)
  exact ⟨key, key⟩

theorem BoxFits.fitsR2C (M : Machine) (d : Fin 3) {l : LinesM} (hl : linesR2CM M.index b d = .ok l) :
    l.fits M w l.size ((l.size + 2) / 2) = true := by
  rw [h.linesR2C] at hl
  obtain rfl := Except.ok.inj hl
  obtain ⟨g1, g2⟩ := h.last d
  obtain ⟨-, n1, n2⟩ := h.howMany M.index d
  have hs := h.size d
  have hc := h.count
  obtain ⟨h1, -⟩ := h.sizes
  have m1 := mul_pos (h1 0) (h1 1)
  obtain ⟨q1, q2⟩ := h.half
  have hd : (0 : Int) ≤ if d = b.order 0 then b.size d else 1 := by split_ifs <;> omega
  have hd' : (0 : Int) ≤ if d = b.order 0 then b.size d / 2 + 1 else 1 := by split_ifs <;> omega
  have hdd : (if d = b.order 0 then b.size d / 2 + 1 else 1) ≤ if d = b.order 0 then b.size d else 1 := by split_ifs <;> omega
  unfold LinesM.fits
  simp only [Bool.and_eq_true, Bool.or_eq_true, decide_eq_true_eq, List.all_eq_true]
  refine ⟨⟨hs.1, fun i hi => ⟨h.block d hi m1.le le_rfl, h.block d hi q2.le q1⟩⟩, .inr ⟨⟨fitsInt_of (by omega) (by omega), fitsInt_of (by omega) (by omega)⟩, ?_⟩⟩
  intro p hp
  rw [mem_loop] at hp
  refine ⟨fun i hi => ?_, fun i hi => ?_⟩
  · rw [mem_loop] at hi
    exact entryFits_of hd g1.le hp hi g2 (by omega)
  · rw [mem_loop] at hi
    refine entryFits_of hd' g1.le hp (n := b.size d) ⟨hi.1, by omega⟩ (lt_of_le_of_lt ?_ g2) (by omega)
    have : (Verif.howMany b d - 1) * (if d = b.order 0 then b.size d / 2 + 1 else 1) ≤
        (Verif.howMany b d - 1) * (if d = b.order 0 then b.size d else 1) := mul_le_mul_of_nonneg_left hdd (by omega)
    omega

variable {α β : Type}

theorem BoxFits.execC2C (M : Machine) (T : Nat → Int × Int → List α → Res (List α)) (d : Fin 3) (base : Int) (mem : List α) :
    execC2CM M w T b d base mem = Verif.execC2C w (T (b.size d).toNat) b d base mem := by
  have hf := fun l hl => h.fitsC2C M d (l := l) hl
  unfold execC2CM
  have e := h.lines M.index d
  have f := hf _ e
  rw [e, res_bind, if_pos f]
  rfl

theorem BoxFits.execR2C (M : Machine) (T : Nat → Int × Int → List α → Res (List β)) (d : Fin 3) (rbase cbase : Int) (src : List α)
    (dst : List β) : execR2CM M w T b d rbase cbase src dst = Verif.execR2C w (T (b.size d).toNat) b d rbase cbase src dst := by
  have e := h.linesR2C M.index d
  have f := h.fitsR2C M d e
  unfold execR2CM
  rw [e, res_bind, if_pos f]
  rfl

theorem BoxFits.execC2R (M : Machine) (T : Nat → Int × Int → List α → Res (List β)) (d : Fin 3) (cbase rbase : Int) (src : List α)
    (dst : List β) : execC2RM M w T b d cbase rbase src dst = Verif.execC2R w (T (b.size d).toNat) b d cbase rbase src dst := by
  have e := h.linesR2C M.index d
  have f := h.fitsR2C M d e
  unfold execC2RM
  rw [e, res_bind, if_pos f]
  rfl

theorem BoxFits.pair {d e : Fin 3} (hne : d ≠ e) : 0 < b.size d * b.size e ∧ b.size d * b.size e ≤ b.count := by
  have p0 := (h.size 0).1
  have p1 := (h.size 1).1
  have p2 := (h.size 2).1
  have hc : b.count = b.size 2 * b.size 1 * b.size 0 := by
    unfold Box.count
    rw [if_neg (by rw [h.some]; decide)]; ring
  obtain ⟨-, -, -, q1, q2, q3⟩ := products_le p0 p1 p2
  rw [← hc] at q1 q2 q3
  refine ⟨mul_pos (h.size d).1 (h.size e).1, ?_⟩
  have c1 := mul_comm (b.size 1) (b.size 0)
  have c2 := mul_comm (b.size 2) (b.size 1)
  have c3 := mul_comm (b.size 2) (b.size 0)
  fin_cases d <;> fin_cases e <;> first | exact absurd rfl hne | skip
  · exact q1
  · exact q3
  · exact c1.trans_le q1
  · exact q2
  · exact c3.trans_le q3
  · exact c2.trans_le q2

theorem BoxFits.toInt (d : Fin 3) : toInt32 (b.size d) = b.size d := by
  have := h.size d
  have := h.lt
  exact toInt32_of_lt (by omega) (by omega)

theorem BoxFits.merged (t : IndexType) {d e : Fin 3} (hne : d ≠ e) : ∃ m, mergedM t b d e = .ok m := by
  have hmm : min d e ≠ max d e := by
    intro hx
    rcases le_total d e with hh | hh <;> simp [hh] at hx
    · exact hne hx
    · exact hne hx.symm
  have q1 := h.pair hmm
  have q2 := h.pair (d := 1) (e := 0) (by decide)
  have hl := h.lt
  unfold mergedM
  simp only [h.toInt]
  split_ifs
  · rw [intArith_of q1.1.le (by omega)]; exact ⟨_, rfl⟩
  · exact ⟨_, rfl⟩
  · rw [IndexType.arith_of q2.1.le (by omega)]; exact ⟨_, rfl⟩

theorem BoxFits.exec2 (t : IndexType) (T : Nat → Int × Int → List α → Res (List α)) {d e : Fin 3} (hne : d ≠ e) (base : Int)
    (mem : List α) : fftwExec2M t T b d e base mem = fftwExec2 T b d e base mem := by
  have hmm : min d e ≠ max d e := by
    intro hx
    rcases le_total d e with hh | hh <;> simp [hh] at hx
    · exact hne hx
    · exact hne hx.symm
  have q1 := h.pair hmm
  have q2 := h.pair (d := 1) (e := 0) (by decide)
  have hl := h.lt
  unfold fftwExec2M mergedM fftwExec2
  simp only [h.toInt]
  split_ifs
  · rw [intArith_of q1.1.le (by omega)]; rfl
  · rfl
  · rw [IndexType.arith_of q2.1.le (by omega), res_bind, res_bind, toInt32_of_lt q2.1.le (by omega)]

theorem BoxFits.exec3 (T : Nat → Int × Int → List α → Res (List α)) (base : Int) (mem : List α) :
    fftwExec3M T b base mem = fftwExec3 T b base mem := by
  unfold fftwExec3M fftwExec3
  rw [h.toInt, h.toInt, h.toInt]

end

/-! ## The operations of one rank -/

/-- The box of an executor. -/
def Executor.theBox : Executor → Box
  | .one b _ => b
  | .two b _ _ => b
  | .three b => b
  | .r2c b _ => b
  | .trig _ b _ => b

/-- The executor fits: its box, also for all the entries of the batch, and it is one that is modelled. -/
structure ExecFits (w nb : Nat) (e : Executor) : Prop where
  box : BoxFits w e.theBox
  batch : nb * e.theBox.count < 2 ^ 31
  dirs : ∀ b d1 d2, e = .two b d1 d2 → d1 ≠ d2
  modelled : ∀ z b d, e ≠ .trig z b d

section
variable {α β : Type} {w nb : Nat} {e : Executor}

theorem Executor.boxSize_theBox (e : Executor) : e.boxSize = e.theBox.count := by cases e <;> rfl

theorem ExecFits.boxSize (h : ExecFits w nb e) : 0 ≤ e.boxSize ∧ e.boxSize < 2 ^ 31 ∧ nb * e.boxSize < 2 ^ 31 ∧ toInt32 e.boxSize = e.boxSize := by
  rw [e.boxSize_theBox]
  have := Box.count_nonneg e.theBox
  exact ⟨this, h.box.lt, h.batch, toInt32_of_lt this h.box.lt⟩

theorem ExecFits.complexSize (h : ExecFits w nb e) :
    0 ≤ e.complexSize ∧ e.complexSize < 2 ^ 31 ∧ nb * e.complexSize < 2 ^ 31 ∧ toInt32 e.complexSize = e.complexSize := by
  cases e with
  | r2c b d =>
    have h1 : (b.r2c d).count ≤ b.count ∧ 0 ≤ (b.r2c d).count := BoxFits.r2cCount h.box d
    have h2 : b.count < 2 ^ 31 := h.box.lt
    have h3 : nb * b.count < 2 ^ 31 := h.batch
    have h4 : (nb : Int) * (b.r2c d).count ≤ nb * b.count := mul_le_mul_of_nonneg_left h1.1 (by omega)
    exact ⟨h1.2, lt_of_le_of_lt h1.1 h2, lt_of_le_of_lt h4 h3, toInt32_of_lt h1.2 (lt_of_le_of_lt h1.1 h2)⟩
  | one _ _ => exact h.boxSize
  | two _ _ _ => exact h.boxSize
  | three _ => exact h.boxSize
  | trig _ _ _ => exact h.boxSize

variable (M : Machine) {K : Kernel α β}

theorem ExecFits.runC2C (h : ExecFits K.lanes nb e) (tag : Tag) (fwd : Bool) (base : Int) (mem : List α) :
    runC2CM M K tag fwd e base mem = Verif.runC2C K tag fwd e base mem := by
  cases e with
  | one b d => exact h.box.execC2C M _ d base mem
  | two b d1 d2 => exact h.box.exec2 M.index _ (h.dirs b d1 d2 rfl) base mem
  | three b => exact h.box.exec3 _ base mem
  | r2c b d => rfl
  | trig z b d => exact absurd rfl (h.modelled z b d)

theorem ExecFits.runR2C (h : ExecFits K.lanes nb e) (tag : Tag) (rbase cbase : Int) (src : List β) (dst : List α) :
    runR2CM M K tag e rbase cbase src dst = Verif.runR2C K tag e rbase cbase src dst := by
  have hb := h.boxSize.2.2.2
  have hr := funext fun mem => h.runC2C M tag true cbase mem
  cases e with
  | r2c b d => exact h.box.execR2C M _ d rbase cbase src dst
  | _ => unfold runR2CM Verif.runR2C; simp only [hb, hr]

theorem ExecFits.runC2R (h : ExecFits K.lanes nb e) (tag : Tag) (cbase rbase : Int) (src : List α) (dst : List β) :
    runC2RM M K tag e cbase rbase src dst = Verif.runC2R K tag e cbase rbase src dst := by
  have hb := h.boxSize.2.2.2
  have hr := funext fun mem => h.runC2C M tag false cbase mem
  cases e with
  | r2c b d =>
    have hx : BoxFits K.lanes b := h.box
    unfold runC2RM Verif.runC2R
    simp only [hx.execC2R M _ d cbase rbase src dst]
  | _ => unfold runC2RM Verif.runC2R; simp only [hb, hr]

end
end Verif
