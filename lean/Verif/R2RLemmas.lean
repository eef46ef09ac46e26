import Verif.R2R
import Verif.TrigLemmas
import Verif.ExecFields

/-!
# The executors of the sine and cosine transforms
-/

namespace Verif
open Stock
variable {α β γ : Type}

/-! ## Statements -/

/-- All the writes write the values of `f`, with `S` the entries that are known before. -/
def Consistent (f : Int → β) : (Int → Prop) → List (Int × Val β) → Prop
  | _, [] => True
  | S, (a, v) :: t => (match v with | .val o => o = some (f a) | .own i => S i ∧ f i = f a) ∧ Consistent f (fun i => S i ∨ i = a) t

theorem Consistent.of_all {f : Int → β} : ∀ (l : List (Int × Val β)) (S : Int → Prop),
    (∀ w ∈ l, match w.2 with | .val o => o = some (f w.1) | .own i => S i ∧ f i = f w.1) → Consistent f S l
  | [], _, _ => trivial
  | (a, v) :: t, S, h => by
    refine ⟨h (a, v) (by simp), Consistent.of_all t _ fun w hw => ?_⟩
    have := h w (by simp [hw])
    revert this
    cases w.2 with
    | val o => exact id
    | own i => exact fun h => ⟨.inl h.1, h.2⟩

theorem Consistent.append {f : Int → β} : ∀ (l l' : List (Int × Val β)) (S : Int → Prop),
    Consistent f S l → Consistent f (fun i => S i ∨ ∃ w ∈ l, w.1 = i) l' → Consistent f S (l ++ l')
  | [], l', S, _, h => by simpa using h
  | (a, v) :: t, l', S, h, h' => by
    refine ⟨h.1, Consistent.append t l' _ h.2 ?_⟩
    have e : (fun i => (S i ∨ i = a) ∨ ∃ w ∈ t, w.1 = i) = fun i => S i ∨ ∃ w ∈ (a, v) :: t, w.1 = i := by
      funext i
      simp only [List.mem_cons, exists_eq_or_imp, eq_iff_iff, or_assoc, eq_comm]
    rw [e]
    exact h'

theorem runStmts_ok {f : Int → β} {base : Int} : ∀ (l : List (Int × Val β)) (S : Int → Prop) (mem : List β),
    (∀ i, S i → rd mem (base + i) = some (f i)) → Consistent f S l → (∀ w ∈ l, 0 ≤ base + w.1 ∧ base + w.1 < mem.length) →
    ∃ r, runStmts base l mem = .ok r ∧ r.length = mem.length ∧ (∀ i, (S i ∨ ∃ w ∈ l, w.1 = i) → rd r (base + i) = some (f i)) ∧
      ∀ a, (∀ w ∈ l, base + w.1 ≠ a) → rd r a = rd mem a
  | [], S, mem, hS, _, _ => ⟨mem, rfl, rfl, fun i hi => hS i (by simpa using hi), fun _ _ => rfl⟩
  | (a, v) :: t, S, mem, hS, hc, hb => by
    obtain ⟨h1, h2⟩ := hc
    have hv : v.read base mem = some (f a) := by
      cases v with
      | val o => exact h1
      | own i => exact (hS i h1.1).trans (congrArg some h1.2)
    have hba := hb (a, v) (by simp)
    obtain ⟨r, r1, r2, r3, r4⟩ := runStmts_ok t (fun i => S i ∨ i = a) (mem.set (base + a).toNat (f a))
      (fun i hi => by
        rw [rd_set hba]
        by_cases h : base + i = base + a
        · rw [if_pos h, show i = a by omega]
        · rw [if_neg h]
          rcases hi with hi | hi
          · exact hS i hi
          · exact absurd (by rw [hi]) h)
      h2 (fun w hw => by rw [List.length_set]; exact hb w (by simp [hw]))
    refine ⟨r, ?_, by rw [r2, List.length_set], ?_, ?_⟩
    · unfold runStmts
      rw [hv]
      simp only [wr]
      rw [if_pos hba]
      exact r1
    · intro i hi
      apply r3
      rcases hi with hi | ⟨w, hw, rfl⟩
      · exact .inl (.inl hi)
      · rcases List.mem_cons.1 hw with rfl | hw
        · exact .inl (.inr rfl)
        · exact .inr ⟨w, hw, rfl⟩
    · intro x hx
      rw [r4 x fun w hw => hx w (by simp [hw]), rd_set hba, if_neg (fun h => hx (a, v) (by simp) h.symm)]

/-! ## One line after the other -/

theorem loop_succ {c : Nat} : loop ((c + 1 : Nat) : Int) = loop (c : Int) ++ [(c : Int)] := by
  unfold loop
  rw [show (((c + 1 : Nat) : Int)).toNat = c + 1 by omega, show ((c : Int)).toNat = c by omega, List.range_succ]
  simp

/-- A loop over blocks of length `B` from `A` on; entries from `hi` on are not touched. -/
theorem fold_blocks {step : List γ → Int → Res (List γ)} {A B hi : Int} {len : Nat} {g : Int → Int → γ} (hB : 0 ≤ B) : ∀ (L : Nat),
    (∀ c : Int, 0 ≤ c → c < L → ∀ t : List γ, t.length = len → ∃ t', step t c = .ok t' ∧ t'.length = len ∧
      (∀ m, 0 ≤ m → m < B → rd t' (A + c * B + m) = some (g c m)) ∧ ∀ a, (a < A + c * B ∨ hi ≤ a) → rd t' a = rd t a) →
    ∀ t : List γ, t.length = len → ∃ t', (loop L).foldlM step t = .ok t' ∧ t'.length = len ∧
      (∀ c : Int, 0 ≤ c → c < L → ∀ m, 0 ≤ m → m < B → rd t' (A + c * B + m) = some (g c m)) ∧ ∀ a, (a < A ∨ hi ≤ a) → rd t' a = rd t a := by
  intro L
  induction L with
  | zero =>
    intro _ t ht
    exact ⟨t, rfl, ht, fun c h0 h1 => by omega, fun _ _ => rfl⟩
  | succ L ih =>
    intro hs t ht
    obtain ⟨t1, a1, a2, a3, a4⟩ := ih (fun c h0 h1 => hs c h0 (by push_cast; omega)) t ht
    obtain ⟨t2, b1, b2, b3, b4⟩ := hs L (Int.natCast_nonneg _) (by push_cast; omega) t1 a2
    have hLB : 0 ≤ (L : Int) * B := mul_nonneg (Int.natCast_nonneg _) hB
    refine ⟨t2, ?_, b2, ?_, ?_⟩
    · rw [loop_succ, List.foldlM_append, a1]
      simp only [bind, Except.bind, List.foldlM_cons, List.foldlM_nil, b1]
      rfl
    · intro c h0 h1 m hm0 hm1
      by_cases h : c = L
      · subst h; exact b3 m hm0 hm1
      · rw [b4, a3 c h0 (by push_cast at h1; omega) m hm0 hm1]
        left
        have : (c + 1) * B ≤ L * B := mul_le_mul_of_nonneg_right (by push_cast at h1; omega) hB
        rw [add_mul, one_mul] at this
        omega
    · intro a ha
      rw [b4, a4 a ha]
      rcases ha with ha | ha
      · left; omega
      · exact .inr ha

/-- A block written by a list of writes. -/
theorem writeAll_block {ws : List (Int × Option γ)} {C B : Int} {g : Int → γ} {t : List γ} (h0 : 0 ≤ C) (hlen : C + B ≤ t.length)
    (hw : ∀ w ∈ ws, (0 ≤ w.1 ∧ w.1 < B) ∧ w.2 = some (g w.1)) (hc : ∀ m, 0 ≤ m → m < B → ∃ w ∈ ws, w.1 = m) :
    ∃ t', writeAll (shiftBy C ws) t = .ok t' ∧ t'.length = t.length ∧ (∀ m, 0 ≤ m → m < B → rd t' (C + m) = some (g m)) ∧
      ∀ a, (a < C ∨ C + B ≤ a) → rd t' a = rd t a := by
  have hm : ∀ u, u ∈ shiftBy C ws → ∃ w ∈ ws, u = (C + w.1, some (g w.1)) := by
    intro u hu
    obtain ⟨w, hw', rfl⟩ := List.mem_map.1 hu
    refine ⟨w, hw', ?_⟩
    rw [(hw w hw').2]
  obtain ⟨r, r1, r2, r3, r4⟩ := writeAll_ok (shiftBy C ws) t
    (fun u hu => by
      obtain ⟨w, hw', rfl⟩ := hm u hu
      have := (hw w hw').1
      exact ⟨rfl, by dsimp only; omega, by dsimp only; omega⟩)
    (fun u hu v hv h => by
      obtain ⟨w, hw', rfl⟩ := hm u hu
      obtain ⟨w', hw'', rfl⟩ := hm v hv
      dsimp only at h ⊢
      rw [show w.1 = w'.1 by omega])
  refine ⟨r, r1, r2, ?_, ?_⟩
  · intro m h0 h1
    obtain ⟨w, hw', rfl⟩ := hc m h0 h1
    rw [r3 (C + w.1, w.2) (List.mem_map.2 ⟨w, hw', rfl⟩), (hw w hw').2]
  · intro a ha
    refine r4 a fun u hu => ?_
    obtain ⟨w, hw', rfl⟩ := hm u hu
    have := (hw w hw').1
    dsimp only
    omega

/-! ## The transforms of the long lines -/

theorem lines_out {w : Nat} (hw : 0 < w) {e : Box} (ho : IsOrder e.order) (he : e.empty = false) {n m : Nat} (hn : 0 < n) (hm : 0 < m) {ib ob : Int}
    {T : Int × Int → List α → Res (List β)} {t : List α → Nat → β} (hT : ∀ s v, v.length = n → T s v = .ok ((List.range m).map (t v)))
    {src : List α} {dst : List β} {y : Int → Nat → α} (hsrc : ∀ c, 0 ≤ c → c < numLines e → ∀ i < n, rd src (c * n + i) = some (y c i))
    (hlen : numLines e * m ≤ dst.length) :
    ∃ r, runOut T n m (lineStride e (e.order 0)) src (laneGroups w e (e.order 0) 0 n ib 0 m ob) dst = .ok r ∧ r.length = dst.length ∧
      ∀ c, 0 ≤ c → c < numLines e → ∀ i < m, rd r (c * m + i) = some (t ((List.range n).map (y c)) i) := by
  have hstride : lineStride e (e.order 0) = 1 := by rw [lineStride_eq, if_pos (by simp)]
  have hmany : howMany e (e.order 0) = numLines e := by rw [howMany_eq, if_pos (by simp)]; rfl
  have hblocks : numBlocks e (e.order 0) = 1 := by
    rw [numBlocks_eq, if_neg]
    intro h
    exact ho.1 (by simpa using h)
  have hflat := laneGroups_flatten hw he (e.order 0) 0 n ib 0 m ob
  rw [hmany, hblocks] at hflat
  have hmem : ∀ s, s ∈ (laneGroups w e (e.order 0) 0 n ib 0 m ob).flatten ↔ ∃ p : Int, (0 ≤ p ∧ p < numLines e) ∧ s = (p * n, p * m) := by
    intro s
    rw [hflat]
    simp only [List.mem_flatMap, mem_loop, List.mem_map]
    constructor
    · rintro ⟨i, hi, p, hp, rfl⟩
      obtain rfl : i = 0 := by omega
      exact ⟨p, hp, by simp⟩
    · rintro ⟨p, hp, rfl⟩
      exact ⟨0, by omega, p, hp, by simp⟩
  have hbd : ∀ p : Int, 0 ≤ p → p < numLines e → ∀ i : Nat, i < m → 0 ≤ p * m + i ∧ p * m + i < dst.length := by
    intro p h0 h1 i hi
    have a1 : 0 ≤ p * (m : Int) := mul_nonneg h0 (Int.natCast_nonneg _)
    have a2 : (p + 1) * (m : Int) ≤ numLines e * m := mul_le_mul_of_nonneg_right (by omega) (Int.natCast_nonneg _)
    rw [add_mul, one_mul] at a2
    omega
  have hinj : ∀ p q : Int, ∀ i j : Nat, i < m → j < m → p * (m : Int) + i = q * m + j → p = q ∧ i = j := by
    intro p q i j hi hj h
    have e1 : (p * (m : Int) + i) / m = p := by
      rw [add_comm, Int.add_mul_ediv_right _ _ (by omega), Int.ediv_eq_zero_of_lt (by omega) (by omega), zero_add]
    have e2 : (q * (m : Int) + j) / m = q := by
      rw [add_comm, Int.add_mul_ediv_right _ _ (by omega), Int.ediv_eq_zero_of_lt (by omega) (by omega), zero_add]
    have : p = q := by rw [← e1, ← e2, h]
    subst this
    exact ⟨rfl, by omega⟩
  rw [hstride]
  have hfst : ∀ p : Int, p * (n : Int) / n = p := fun p => Int.mul_ediv_cancel _ (by omega)
  obtain ⟨r, r1, r2, r3, -⟩ := runOut_ok hT (src := src) (stride := 1) (line := fun s => (List.range n).map (y (s.1 / n)))
    (laneGroups w e (e.order 0) 0 n ib 0 m ob) dst
    (fun s hs => by
      obtain ⟨p, hp, rfl⟩ := (hmem s).1 hs
      dsimp only
      rw [hfst]
      exact ⟨readLine_eq (g := y p) fun i hi => by rw [mul_one]; exact hsrc p hp.1 hp.2 i hi, by simp⟩)
    ⟨fun s hs i hi => by
      obtain ⟨u, hu, rfl⟩ := List.mem_map.1 hs
      obtain ⟨p, hp, rfl⟩ := (hmem u).1 hu
      rw [mul_one]
      exact hbd p hp.1 hp.2 i hi,
    fun s hs s' hs' i hi i' hi' h => by
      obtain ⟨u, hu, rfl⟩ := List.mem_map.1 hs
      obtain ⟨p, hp, rfl⟩ := (hmem u).1 hu
      obtain ⟨u', hu', rfl⟩ := List.mem_map.1 hs'
      obtain ⟨p', hp', rfl⟩ := (hmem u').1 hu'
      rw [mul_one, mul_one] at h
      obtain ⟨rfl, rfl⟩ := hinj p p' i i' hi hi' h
      exact ⟨rfl, rfl⟩⟩
    (by
      rw [hflat]
      have : ((loop 1).flatMap fun i => (loop (numLines e)).map fun p => ((0 : Int) + i * ib + p * n, (0 : Int) + i * ob + p * m)) =
          (loop (numLines e)).map fun p => ((0 : Int) + 0 * ib + p * n, (0 : Int) + 0 * ob + p * m) := by
        show (List.flatMap _ [(0 : Int)]) = _
        simp
      rw [this, List.map_map]
      refine List.Nodup.map ?_ (loop_nodup _)
      intro p q h
      simp only [Function.comp_apply, zero_mul, zero_add] at h
      exact mul_right_cancel₀ (by exact_mod_cast hm.ne') h)
  refine ⟨r, r1, r2, fun c h0 h1 i hi => ?_⟩
  have := r3 _ ((hmem _).2 ⟨c, ⟨h0, h1⟩, rfl⟩) i hi
  dsimp only at this
  rw [mul_one, hfst] at this
  exact this

/-! ## Pre- and post-processing -/

theorem gain_extended (z : Trig) {N : Nat} (hN : z.least ≤ N) : z.extended N = (z.gain N : Int) := by
  cases z <;> simp only [Trig.extended, Trig.gain, Trig.least] at * <;> omega

theorem preForward_ok (z : Trig) {N : Nat} (hN : z.least ≤ N) {x : Int → Option ℝ} {X : Nat → ℝ} (hx : ∀ k : Nat, k < N → x k = some (X k)) :
    Consistent (fun m : Int => signal z N X m.toNat) (fun _ => False) (preForward z N x) ∧
    (∀ w ∈ preForward z N x, 0 ≤ w.1 ∧ w.1 ≤ z.gain N) ∧ ∀ m : Int, 0 ≤ m → m < z.gain N → ∃ w ∈ preForward z N x, w.1 = m := by
  have hx' : ∀ i : Int, 0 ≤ i → i < N → x i = some (X i.toNat) := by
    intro i h0 h1
    have := hx i.toNat (by omega)
    rwa [Int.toNat_of_nonneg h0] at this
  cases z with
  | cos =>
    simp only [Trig.least, Trig.gain] at *
    have hwrites : ∀ i : Int, i ∈ loop (2 * (N : Int)) → ∃ w ∈ ((loop (N : Int)).flatMap fun i => [((2 * i : Int), Val.val (some (0 : ℝ))), (2 * i + 1, Val.val (x i))]) ++
        [(2 * (N : Int), Val.val (some 0))], w.1 = i := by
      intro i hi
      rw [mem_loop] at hi
      by_cases h : i % 2 = 0
      · exact ⟨(2 * (i / 2), .val (some 0)), List.mem_append_left _ (List.mem_flatMap.2 ⟨i / 2, by rw [mem_loop]; omega, by simp⟩), by dsimp only; omega⟩
      · exact ⟨(2 * (i / 2) + 1, .val (x (i / 2))), List.mem_append_left _ (List.mem_flatMap.2 ⟨i / 2, by rw [mem_loop]; omega, by simp⟩), by dsimp only; omega⟩
    refine ⟨?_, ?_, ?_⟩
    · unfold preForward
      refine Consistent.append _ _ _ (Consistent.of_all _ _ ?_) (Consistent.of_all _ _ ?_)
      · intro w hw
        rcases List.mem_append.1 hw with hw | hw
        · obtain ⟨i, hi, hw⟩ := List.mem_flatMap.1 hw
          rw [mem_loop] at hi
          simp only [List.mem_cons, List.not_mem_nil, or_false] at hw
          rcases hw with rfl | rfl
          · simp only [signal]; rw [if_pos (by omega)]
          · simp only [signal]; rw [if_neg (by omega), if_pos (by omega), hx' i hi.1 hi.2]; congr 2; omega
        · obtain rfl := List.mem_singleton.1 hw
          simp only [signal]; rw [if_pos (by omega)]
      · intro w hw
        obtain ⟨i, hi, rfl⟩ := List.mem_map.1 hw
        refine ⟨.inr (hwrites i hi), ?_⟩
        rw [mem_loop] at hi
        simp only [signal]
        by_cases h : i % 2 = 0
        · rw [if_pos (by omega), if_pos (by omega)]
        · rw [if_neg (by omega), if_pos (by omega), if_neg (by omega), if_neg (by omega)]; congr 1; omega
    · intro w hw
      simp only [preForward, List.mem_append, List.mem_flatMap, List.mem_map, mem_loop, List.mem_cons, List.not_mem_nil, or_false] at hw
      rcases hw with (⟨i, hi, rfl | rfl⟩ | rfl) | ⟨i, hi, rfl⟩ <;> (dsimp only; push_cast; omega)
    · intro m h0 h1
      by_cases h : m < 2 * N
      · obtain ⟨w, hw, e⟩ := hwrites m (mem_loop.2 ⟨h0, h⟩)
        exact ⟨w, List.mem_append_left _ hw, e⟩
      · by_cases h2 : m = 2 * N
        · exact ⟨(2 * N, .val (some 0)), List.mem_append_left _ (List.mem_append_right _ (by simp)), h2.symm⟩
        · push_cast at h1
          exact ⟨(4 * N - (4 * N - m), .own (4 * N - m)), List.mem_append_right _ (List.mem_map.2 ⟨4 * N - m, by rw [mem_loop]; omega, rfl⟩), by dsimp only; omega⟩
  | sin =>
    simp only [Trig.least, Trig.gain] at *
    refine ⟨Consistent.of_all _ _ ?_, ?_, ?_⟩
    · intro w hw
      simp only [preForward, List.mem_append, List.mem_flatMap, mem_loop, List.mem_cons, List.not_mem_nil, or_false] at hw
      rcases hw with (⟨i, hi, rfl | rfl⟩ | rfl) | ⟨i, hi, rfl | rfl⟩
      · simp only [signal]; rw [if_pos (by omega)]
      · simp only [signal]; rw [if_neg (by omega), if_pos (by omega), hx' i hi.1 hi.2]; congr 2; omega
      · simp only [signal]; rw [if_pos (by omega)]
      · simp only [signal]; rw [if_pos (by omega)]
      · simp only [signal]; rw [if_neg (by omega), if_neg (by omega), hx' i hi.1 hi.2, Option.map_some]; congr 3; omega
    · intro w hw
      simp only [preForward, List.mem_append, List.mem_flatMap, mem_loop, List.mem_cons, List.not_mem_nil, or_false] at hw
      rcases hw with (⟨i, hi, rfl | rfl⟩ | rfl) | ⟨i, hi, rfl | rfl⟩ <;> (dsimp only; push_cast; omega)
    · intro m h0 h1
      simp only [preForward, List.mem_append, List.mem_flatMap, mem_loop, List.mem_cons, List.not_mem_nil, or_false]
      push_cast at h1
      by_cases h : m < 2 * N
      · by_cases h2 : m % 2 = 0
        · exact ⟨_, .inl (.inl ⟨m / 2, by omega, .inl rfl⟩), by dsimp only; omega⟩
        · exact ⟨_, .inl (.inl ⟨m / 2, by omega, .inr rfl⟩), by dsimp only; omega⟩
      · by_cases h3 : m = 2 * N
        · exact ⟨_, .inl (.inr rfl), h3.symm⟩
        · by_cases h2 : m % 2 = 0
          · exact ⟨_, .inr ⟨(4 * N - m) / 2, by omega, .inl rfl⟩, by dsimp only; omega⟩
          · exact ⟨_, .inr ⟨(4 * N - m) / 2, by omega, .inr rfl⟩, by dsimp only; omega⟩
  | cos1 =>
    simp only [Trig.least, Trig.gain] at *
    refine ⟨Consistent.of_all _ _ ?_, ?_, ?_⟩
    · intro w hw
      simp only [preForward, List.mem_append, List.mem_flatMap, mem_loop, mem_loopFrom, List.mem_cons, List.not_mem_nil, or_false] at hw
      rcases hw with ⟨i, hi, rfl | rfl⟩ | ⟨i, hi, rfl | rfl⟩
      · simp only [signal]; rw [if_neg (by omega), if_pos (by omega), hx' i hi.1 (by omega)]; congr 2; omega
      · simp only [signal]; rw [if_pos (by omega)]
      · simp only [signal]; rw [if_neg (by omega), if_neg (by omega), hx' i (by omega) hi.2]; congr 2; omega
      · simp only [signal]; rw [if_pos (by omega)]
    · intro w hw
      simp only [preForward, List.mem_append, List.mem_flatMap, mem_loop, mem_loopFrom, List.mem_cons, List.not_mem_nil, or_false] at hw
      rcases hw with ⟨i, hi, rfl | rfl⟩ | ⟨i, hi, rfl | rfl⟩ <;> (dsimp only; push_cast [Nat.cast_sub (show 1 ≤ N by omega)]; omega)
    · intro m h0 h1
      simp only [preForward, List.mem_append, List.mem_flatMap, mem_loop, mem_loopFrom, List.mem_cons, List.not_mem_nil, or_false]
      by_cases h : m < 2 * (N - 1)
      · by_cases h2 : m % 2 = 0
        · exact ⟨_, .inl ⟨m / 2, by omega, .inl rfl⟩, by dsimp only; omega⟩
        · exact ⟨_, .inl ⟨m / 2, by omega, .inr rfl⟩, by dsimp only; omega⟩
      · by_cases h2 : m % 2 = 0
        · exact ⟨_, .inr ⟨(4 * (N - 1) - m) / 2, by omega, .inl rfl⟩, by dsimp only; omega⟩
        · exact ⟨_, .inr ⟨(4 * (N - 1) - (m - 1)) / 2, by omega, .inr rfl⟩, by dsimp only; omega⟩

section
variable {C : Type} {K : Kernel C ℝ}

/-- The half spectrum of the backward transform, for any complex numbers. -/
def halfLine (K : Kernel C ℝ) (z : Trig) (n : Nat) (y : Nat → ℝ) (k : Nat) : C :=
  match z with
  | .cos => if k < n then K.join (y k) 0 else if k = n then K.join 0 0 else K.join (-y (2 * n - k)) 0
  | .sin => if k = 0 then K.join 0 0 else if k ≤ n then K.join 0 (-y (k - 1)) else if k < 2 * n then K.join 0 (-y (2 * n - k - 1)) else K.join 0 0
  | .cos1 => if k < n then K.join (y k) 0 else K.join (y (2 * (n - 1) - k)) 0

/-- Entry `k` of the result of the forward transform in the half spectrum `y`, for any complex numbers. -/
def takenAt (K : Kernel C ℝ) (z : Trig) (y : Nat → C) (k : Nat) : ℝ :=
  match z with
  | .cos => (K.parts (y k)).1
  | .sin => -(K.parts (y (k + 1))).2
  | .cos1 => (K.parts (y k)).1

/-- What the executors compute of a line, for any arithmetic with the transforms `r2c` and `c2r`. -/
def Kernel.trigLine (K : Kernel C ℝ) (r2c : List ℝ → Nat → C) (c2r : Nat → List C → Nat → ℝ) (z : Trig) (fwd : Bool) (v : List ℝ) (k : Nat) : ℝ :=
  let n := v.length
  let x := fun j => v.getD j 0
  if fwd then takenAt K z (r2c ((List.range (z.gain n)).map (signal z n x))) k
  else c2r (z.gain n) ((List.range (z.gain n / 2 + 1)).map (halfLine K z n x)) (z.pick k)

theorem halfLine_spectrum {K : Kernel ℂ ℝ} (hj : ∀ a b, K.join a b = ⟨a, b⟩) (z : Trig) (n : Nat) (y : Nat → ℝ) : halfLine K z n y = spectrum z n y := by
  have hz : (⟨0, 0⟩ : ℂ) = 0 := rfl
  funext k
  cases z <;> simp only [halfLine, spectrum, hj, hz]

theorem takenAt_spectrum {K : Kernel ℂ ℝ} (hp : ∀ c, K.parts c = (c.re, c.im)) (z : Trig) {n k : Nat} (hk : k < n) {y : Nat → ℂ} {Y : Nat → ℝ}
    (hy : ∀ i ≤ z.gain n / 2, y i = spectrum z n Y i) (hn : z.least ≤ n) : takenAt K z y k = Y k := by
  cases z with
  | cos =>
    simp only [Trig.least, Trig.gain, takenAt] at *
    rw [hy k (by omega), hp]
    simp only [spectrum]
    rw [if_pos hk]
  | sin =>
    simp only [Trig.least, Trig.gain, takenAt] at *
    rw [hy (k + 1) (by omega), hp]
    simp only [spectrum]
    rw [if_neg (by omega), if_pos (by omega), neg_neg, Nat.add_sub_cancel]
  | cos1 =>
    simp only [Trig.least, Trig.gain, takenAt] at *
    rw [hy k (by omega), hp]
    simp only [spectrum]
    rw [if_pos hk]

theorem signal_congr (z : Trig) {n : Nat} (hn : z.least ≤ n) {x y : Nat → ℝ} (h : ∀ j < n, x j = y j) {m : Nat} (hm : m < z.gain n) : signal z n x m = signal z n y m := by
  cases z <;> simp only [Trig.least, Trig.gain, signal] at *
  · split
    · rfl
    · split <;> rw [h _ (by omega)]
  · split
    · rfl
    · split <;> rw [h _ (by omega)]
  · split
    · rfl
    · split <;> rw [h _ (by omega)]

theorem halfLine_congr (K : Kernel C ℝ) (z : Trig) {n : Nat} (hn : z.least ≤ n) {x y : Nat → ℝ} (h : ∀ j < n, x j = y j) {m : Nat} (hm : m ≤ z.gain n / 2) :
    halfLine K z n x m = halfLine K z n y m := by
  cases z <;> simp only [Trig.least, Trig.gain, halfLine] at *
  · split
    · rw [h _ (by omega)]
    · split
      · rfl
      · rw [h _ (by omega)]
  · split
    · rfl
    · split
      · rw [h _ (by omega)]
      · split
        · rw [h _ (by omega)]
        · rfl
  · split
    · rw [h _ (by omega)]
    · rw [h _ (by omega)]

/-- The lines in terms of their entries. -/
theorem trigLine_entries (K : Kernel C ℝ) (r2c : List ℝ → Nat → C) (c2r : Nat → List C → Nat → ℝ) (z : Trig) {n : Nat} (hn : z.least ≤ n) (x : Nat → ℝ) (k : Nat) :
    K.trigLine r2c c2r z true ((List.range n).map x) k = takenAt K z (r2c ((List.range (z.gain n)).map (signal z n x))) k ∧
    K.trigLine r2c c2r z false ((List.range n).map x) k = c2r (z.gain n) ((List.range (z.gain n / 2 + 1)).map (halfLine K z n x)) (z.pick k) := by
  have hx : ∀ j < n, ((List.range n).map x).getD j 0 = x j := fun j hj => getD_range_map _ _ hj
  have e1 : (List.range (z.gain n)).map (signal z n fun j => ((List.range n).map x).getD j 0) = (List.range (z.gain n)).map (signal z n x) :=
    List.map_congr_left fun m hm => signal_congr z hn hx (List.mem_range.1 hm)
  have e2 : (List.range (z.gain n / 2 + 1)).map (halfLine K z n fun j => ((List.range n).map x).getD j 0) = (List.range (z.gain n / 2 + 1)).map (halfLine K z n x) :=
    List.map_congr_left fun m hm => halfLine_congr K z hn hx (Nat.lt_succ_iff.1 (List.mem_range.1 hm))
  unfold Kernel.trigLine
  simp only [List.length_map, List.length_range, if_true, Bool.false_eq_true, if_false]
  rw [e1, e2]
  exact ⟨rfl, rfl⟩

/-- In exact arithmetic. -/
theorem trigLine_exact {K : Kernel ℂ ℝ} (hp : ∀ c, K.parts c = (c.re, c.im)) (hj : ∀ a b, K.join a b = ⟨a, b⟩) (z : Trig) (fwd : Bool) {n k : Nat}
    (hn : z.least ≤ n) (hk : k < n) (x : Nat → ℝ) : K.trigLine r2c c2r z fwd ((List.range n).map x) k = trigOf z fwd n x k := by
  cases fwd with
  | true =>
    rw [(trigLine_entries K r2c c2r z hn x k).1]
    exact takenAt_spectrum hp z hk (fun i hi => r2c_signal z hn x hi) hn
  | false =>
    rw [(trigLine_entries K r2c c2r z hn x k).2, halfLine_spectrum hj]
    exact c2r_spectrum z hn x k

theorem postForward_ok (z : Trig) {N : Nat} {y : Int → Option C} {Y : Nat → C} (hN : z.least ≤ N)
    (hy : ∀ k : Nat, k < z.gain N / 2 + 1 → y k = some (Y k)) :
    (∀ w ∈ postForward K z N y, (0 ≤ w.1 ∧ w.1 < N) ∧ w.2 = some (takenAt K z Y w.1.toNat)) ∧ ∀ m : Int, 0 ≤ m → m < N → ∃ w ∈ postForward K z N y, w.1 = m := by
  have hy' : ∀ i : Int, 0 ≤ i → i < (z.gain N / 2 + 1 : Nat) → y i = some (Y i.toNat) := by
    intro i h0 h1
    have := hy i.toNat (by omega)
    rwa [Int.toNat_of_nonneg h0] at this
  cases z with
  | cos =>
    simp only [Trig.least, Trig.gain] at *
    refine ⟨?_, fun m h0 h1 => ⟨_, List.mem_map.2 ⟨m, mem_loop.2 ⟨h0, h1⟩, rfl⟩, rfl⟩⟩
    intro w hw
    obtain ⟨i, hi, rfl⟩ := List.mem_map.1 hw
    rw [mem_loop] at hi
    refine ⟨hi, ?_⟩
    rw [hy' i hi.1 (by push_cast; omega), Option.map_some]
    rfl
  | sin =>
    simp only [Trig.least, Trig.gain] at *
    refine ⟨?_, fun m h0 h1 => ⟨_, List.mem_map.2 ⟨m, mem_loop.2 ⟨h0, h1⟩, rfl⟩, rfl⟩⟩
    intro w hw
    obtain ⟨i, hi, rfl⟩ := List.mem_map.1 hw
    rw [mem_loop] at hi
    refine ⟨hi, ?_⟩
    rw [hy' (i + 1) (by omega) (by push_cast; omega), Option.map_some, show (i + 1).toNat = i.toNat + 1 by omega]
    rfl
  | cos1 =>
    simp only [Trig.least, Trig.gain] at *
    refine ⟨?_, fun m h0 h1 => ⟨_, List.mem_map.2 ⟨m, mem_loop.2 ⟨h0, h1⟩, rfl⟩, rfl⟩⟩
    intro w hw
    obtain ⟨i, hi, rfl⟩ := List.mem_map.1 hw
    rw [mem_loop] at hi
    refine ⟨hi, ?_⟩
    rw [hy' i hi.1 (by omega), Option.map_some]
    rfl

theorem preBackward_ok (z : Trig) {N : Nat} (hN : z.least ≤ N) {x : Int → Option ℝ} {X : Nat → ℝ}
    (hx : ∀ k : Nat, k < N → x k = some (X k)) :
    (∀ w ∈ preBackward K z N x, (0 ≤ w.1 ∧ w.1 < (z.gain N / 2 + 1 : Nat)) ∧ w.2 = some (halfLine K z N X w.1.toNat)) ∧
    ∀ m : Int, 0 ≤ m → m < (z.gain N / 2 + 1 : Nat) → ∃ w ∈ preBackward K z N x, w.1 = m := by
  have hx' : ∀ i : Int, 0 ≤ i → i < N → x i = some (X i.toNat) := by
    intro i h0 h1
    have := hx i.toNat (by omega)
    rwa [Int.toNat_of_nonneg h0] at this
  cases z with
  | cos =>
    simp only [Trig.least, Trig.gain] at *
    constructor
    · intro w hw
      simp only [preBackward, List.mem_append, List.mem_map, mem_loop, mem_loopFrom, List.mem_cons, List.not_mem_nil, or_false] at hw
      rcases hw with (⟨i, hi, rfl⟩ | rfl) | ⟨i, hi, rfl⟩
      · refine ⟨by dsimp only; omega, ?_⟩
        dsimp only [halfLine]
        rw [if_pos (by omega), hx' i hi.1 hi.2, Option.map_some]
      · refine ⟨by dsimp only; omega, ?_⟩
        dsimp only [halfLine]
        rw [if_neg (by omega), if_pos (by omega)]
      · refine ⟨by dsimp only; omega, ?_⟩
        dsimp only [halfLine]
        rw [if_neg (by omega), if_neg (by omega), hx' (2 * N - i) (by omega) (by omega), Option.map_some]
        congr 4; omega
    · intro m h0 h1
      simp only [preBackward, List.mem_append, List.mem_map, mem_loop, mem_loopFrom, List.mem_cons, List.not_mem_nil, or_false]
      by_cases h : m < N
      · exact ⟨_, .inl (.inl ⟨m, ⟨h0, h⟩, rfl⟩), rfl⟩
      · by_cases h2 : m = N
        · exact ⟨_, .inl (.inr rfl), h2.symm⟩
        · exact ⟨_, .inr ⟨m, by omega, rfl⟩, rfl⟩
  | sin =>
    simp only [Trig.least, Trig.gain] at *
    constructor
    · intro w hw
      simp only [preBackward, List.mem_append, List.mem_map, mem_loop, List.mem_cons, List.not_mem_nil, or_false] at hw
      rcases hw with ((rfl | ⟨i, hi, rfl⟩) | rfl) | ⟨i, hi, rfl⟩
      · refine ⟨by dsimp only; omega, ?_⟩
        dsimp only [halfLine]
        rw [if_pos (by omega)]
      · refine ⟨by dsimp only; omega, ?_⟩
        dsimp only [halfLine]
        rw [if_neg (by omega), if_pos (by omega), hx' i hi.1 hi.2, Option.map_some]
        congr 4; omega
      · refine ⟨by dsimp only; omega, ?_⟩
        dsimp only [halfLine]
        rw [if_neg (by omega), if_neg (by omega), if_neg (by omega)]
      · refine ⟨by dsimp only; omega, ?_⟩
        dsimp only [halfLine]
        rw [if_neg (by omega), if_neg (by omega), if_pos (by omega), hx' (N - i - 2) (by omega) (by omega), Option.map_some]
        congr 4; omega
    · intro m h0 h1
      simp only [preBackward, List.mem_append, List.mem_map, mem_loop, List.mem_cons, List.not_mem_nil, or_false]
      by_cases h : m = 0
      · exact ⟨_, .inl (.inl (.inl rfl)), h.symm⟩
      · by_cases h2 : m ≤ N
        · exact ⟨_, .inl (.inl (.inr ⟨m - 1, by omega, rfl⟩)), by dsimp only; omega⟩
        · by_cases h3 : m = 2 * N
          · exact ⟨_, .inl (.inr rfl), h3.symm⟩
          · exact ⟨_, .inr ⟨m - N - 1, by omega, rfl⟩, by dsimp only; omega⟩
  | cos1 =>
    simp only [Trig.least, Trig.gain] at *
    constructor
    · intro w hw
      simp only [preBackward, List.mem_append, List.mem_map, mem_loop, mem_loopFrom] at hw
      rcases hw with ⟨i, hi, rfl⟩ | ⟨i, hi, rfl⟩
      · refine ⟨by dsimp only; omega, ?_⟩
        dsimp only [halfLine]
        rw [if_pos (by omega), hx' i hi.1 hi.2, Option.map_some]
      · refine ⟨by dsimp only; omega, ?_⟩
        dsimp only [halfLine]
        rw [if_neg (by omega), hx' (2 * N - 2 - i) (by omega) (by omega), Option.map_some]
        congr 3; omega
    · intro m h0 h1
      simp only [preBackward, List.mem_append, List.mem_map, mem_loop, mem_loopFrom]
      by_cases h : m < N
      · exact ⟨_, .inl ⟨m, ⟨h0, h⟩, rfl⟩, rfl⟩
      · exact ⟨_, .inr ⟨m, by omega, rfl⟩, rfl⟩

theorem postBackward_ok (z : Trig) {N : Nat} {y : Int → Option ℝ} {Y : Nat → ℝ} (hN : z.least ≤ N) (hy : ∀ k : Nat, k < z.gain N → y k = some (Y k)) :
    (∀ w ∈ postBackward z N y, (0 ≤ w.1 ∧ w.1 < N) ∧ w.2 = some (Y (z.pick w.1.toNat))) ∧
    ∀ m : Int, 0 ≤ m → m < N → ∃ w ∈ postBackward z N y, w.1 = m := by
  have hy' : ∀ i : Int, 0 ≤ i → i < z.gain N → y i = some (Y i.toNat) := by
    intro i h0 h1
    have := hy i.toNat (by omega)
    rwa [Int.toNat_of_nonneg h0] at this
  cases z with
  | cos =>
    simp only [Trig.least, Trig.gain] at *
    refine ⟨?_, fun m h0 h1 => ⟨_, List.mem_map.2 ⟨m, mem_loop.2 ⟨h0, h1⟩, rfl⟩, rfl⟩⟩
    intro w hw
    obtain ⟨i, hi, rfl⟩ := List.mem_map.1 hw
    rw [mem_loop] at hi
    refine ⟨hi, ?_⟩
    rw [hy' (2 * i + 1) (by omega) (by push_cast; omega)]
    show some (Y (2 * i + 1).toNat) = some (Y (2 * i.toNat + 1))
    congr 2; omega
  | sin =>
    simp only [Trig.least, Trig.gain] at *
    refine ⟨?_, fun m h0 h1 => ⟨_, List.mem_map.2 ⟨m, mem_loop.2 ⟨h0, h1⟩, rfl⟩, rfl⟩⟩
    intro w hw
    obtain ⟨i, hi, rfl⟩ := List.mem_map.1 hw
    rw [mem_loop] at hi
    refine ⟨hi, ?_⟩
    rw [hy' (2 * i + 1) (by omega) (by push_cast; omega)]
    show some (Y (2 * i + 1).toNat) = some (Y (2 * i.toNat + 1))
    congr 2; omega
  | cos1 =>
    simp only [Trig.least, Trig.gain] at *
    refine ⟨?_, fun m h0 h1 => ⟨_, List.mem_map.2 ⟨m, mem_loop.2 ⟨h0, h1⟩, rfl⟩, rfl⟩⟩
    intro w hw
    obtain ⟨i, hi, rfl⟩ := List.mem_map.1 hw
    rw [mem_loop] at hi
    refine ⟨hi, ?_⟩
    rw [hy' (2 * i) (by omega) (by omega)]
    show some (Y (2 * i).toNat) = some (Y (2 * i.toNat))
    congr 2; omega

end

/-! ## The executor -/

theorem extendedBox_fields (z : Trig) {b : Box} (ho : IsOrder b.order) (hb : b.empty = false) (hn : z.least ≤ (b.osize 0).toNat) :
    (extendedBox z b).order = b.order ∧ (extendedBox z b).empty = false ∧ numLines (extendedBox z b) = numLines b ∧
    (extendedBox z b).size (b.order 0) = z.gain (b.osize 0).toNat ∧
    (extendedBox z b).count = numLines b * z.gain (b.osize 0).toNat ∧
    ((extendedBox z b).r2c (b.order 0)).count = numLines b * (z.gain (b.osize 0).toNat / 2 + 1 : Nat) ∧ 0 < z.gain (b.osize 0).toNat := by
  have p0 := osize_pos hb 0
  have p1 := osize_pos hb 1
  have p2 := osize_pos hb 2
  have hgain : 0 < z.gain (b.osize 0).toNat := by
    cases z <;> simp only [Trig.gain, Trig.least] at * <;> omega
  have hext : z.extended (b.osize 0) = z.gain (b.osize 0).toNat := by
    have := gain_extended z hn
    rwa [Int.toNat_of_nonneg p0.le] at this
  have hsize : ∀ e, (extendedBox z b).size.get e = if e = b.order 0 then (z.gain (b.osize 0).toNat : Int) else b.size.get e := by
    intro e
    rw [Box.size_get]
    simp only [extendedBox, A3.get_set, hext]
    by_cases h : e = b.order 0
    · rw [if_pos h, if_pos h]
      have : ∀ e : Fin 3, (A3.mk (0 : Int) 0 0).get e = 0 := by decide
      rw [this]; ring
    · rw [if_neg h, if_neg h]
      match e with
      | 0 => simp
      | 1 => simp
      | 2 => simp
  have hne : (extendedBox z b).empty = false := by
    rw [Box.empty_false_iff]
    intro e
    have h1 := hsize e
    have h2 := Box.empty_false_iff.1 hb e
    rw [Box.size_get] at h1
    rw [Box.size_get b e] at h1
    split at h1 <;> omega
  have o0 : (extendedBox z b).osize 0 = z.gain (b.osize 0).toNat := by
    show (extendedBox z b).size.get (b.order.get 0) = _
    rw [hsize, if_pos rfl]
  have o1 : (extendedBox z b).osize 1 = b.osize 1 := by
    show (extendedBox z b).size.get (b.order.get 1) = b.size.get (b.order.get 1)
    rw [hsize, if_neg (fun h => ho.1 (by simpa using h.symm))]
  have o2 : (extendedBox z b).osize 2 = b.osize 2 := by
    show (extendedBox z b).size.get (b.order.get 2) = b.size.get (b.order.get 2)
    rw [hsize, if_neg (fun h => ho.2.1 (by simpa using h.symm))]
  have hlines : numLines (extendedBox z b) = numLines b := by unfold numLines; rw [o1, o2]
  refine ⟨rfl, hne, hlines, ?_, ?_, ?_, hgain⟩
  · rw [← o0]; rfl
  · rw [Box.count_osize (b := extendedBox z b) ho hne, o0, o1, o2]; unfold numLines; ring
  · obtain ⟨q1, q2, q3⟩ := r2c_fields hne (b.order 0)
    have hoc : IsOrder ((extendedBox z b).r2c (b.order 0)).order := by rw [q2]; exact ho
    have c0 : ((extendedBox z b).r2c (b.order 0)).osize 0 = (z.gain (b.osize 0).toNat / 2 + 1 : Nat) := by
      show ((extendedBox z b).r2c (b.order 0)).size.get (((extendedBox z b).r2c (b.order 0)).order.get 0) = _
      rw [q2]
      show ((extendedBox z b).r2c (b.order 0)).size.get (b.order 0) = _
      rw [q3, if_pos rfl, hsize, if_pos rfl]
      push_cast; rfl
    have c1 : ((extendedBox z b).r2c (b.order 0)).osize 1 = b.osize 1 := by
      show ((extendedBox z b).r2c (b.order 0)).size.get (((extendedBox z b).r2c (b.order 0)).order.get 1) = _
      rw [q2]
      show ((extendedBox z b).r2c (b.order 0)).size.get (b.order.get 1) = b.size.get (b.order.get 1)
      rw [q3, if_neg (fun h => ho.1 (by simpa using h.symm)), hsize, if_neg (fun h => ho.1 (by simpa using h.symm))]
    have c2 : ((extendedBox z b).r2c (b.order 0)).osize 2 = b.osize 2 := by
      show ((extendedBox z b).r2c (b.order 0)).size.get (((extendedBox z b).r2c (b.order 0)).order.get 2) = _
      rw [q2]
      show ((extendedBox z b).r2c (b.order 0)).size.get (b.order.get 2) = b.size.get (b.order.get 2)
      rw [q3, if_neg (fun h => ho.2.1 (by simpa using h.symm)), hsize, if_neg (fun h => ho.2.1 (by simpa using h.symm))]
    have hce : ((extendedBox z b).r2c (b.order 0)).empty = false := by
      rw [Box.empty_false_iff]
      intro e
      have h1 := q3 e
      have h2 := Box.empty_false_iff.1 hne e
      have h3 := Box.empty_false_iff.1 hne (b.order 0)
      rw [Box.size_get, Box.size_get, Box.size_get] at h1
      split at h1 <;> omega
    rw [Box.count_osize hoc hce, c0, c1, c2]; unfold numLines; ring

theorem toComplex_ge (K : Kernel α β) : ∀ (n : Nat) (l : List β), 2 * n ≤ l.length → n ≤ (K.toComplex l).length
  | 0, _, _ => Nat.zero_le _
  | n + 1, a :: b :: t, h => by
    have e : K.toComplex (a :: b :: t) = K.join a b :: K.toComplex t := rfl
    have := toComplex_ge K n t (by simp at h; omega)
    rw [e, List.length_cons]; omega
  | n + 1, [], h => by simp at h
  | n + 1, [a], h => by rw [List.length_singleton] at h; omega

section
variable {C : Type} {K : Kernel C ℝ} {good : Nat → Prop} {z : Trig} {b : Box} {tag : Tag} {ws data : List ℝ} {base : Int} {x : Int → Nat → ℝ}

/-- The size of the workspace, and that it suffices. -/
theorem workspaceR2R_eq (ho : IsOrder b.order) (hb : b.empty = false) (hn : z.least ≤ (b.osize 0).toNat) :
    workspaceR2R z b (b.order 0) = .ok (numLines b * z.gain (b.osize 0).toNat + 2 * (numLines b * (z.gain (b.osize 0).toNat / 2 + 1 : Nat)) + 1) := by
  obtain ⟨h1, h2, h3, h4, h5, h6, h7⟩ := extendedBox_fields z ho hb hn
  unfold workspaceR2R
  simp only [h2, Bool.false_eq_true, if_false]
  rw [h5, h6]

theorem numLines_nonneg (hb : b.empty = false) : 0 ≤ numLines b := by
  have p1 := osize_pos hb 1
  have p2 := osize_pos hb 2
  unfold numLines; positivity

/-- What the executor computes on its lines. -/
theorem runR2R_lines {fft : Bool → List C → Nat → C} {r2c : List ℝ → Nat → C} {c2r : Nat → List C → Nat → ℝ} (hK : KernelOk K good fft r2c c2r)
    (ho : IsOrder b.order) (hb : b.empty = false) (hn : z.least ≤ (b.osize 0).toNat) (hg : good (z.gain (b.osize 0).toNat)) (fwd : Bool) {need : Int}
    (hneed : workspaceR2R z b (b.order 0) = .ok need) (hws : need ≤ ws.length)
    (hdata : ∀ c, 0 ≤ c → c < numLines b → ∀ k < (b.osize 0).toNat, rd data (base + c * b.osize 0 + (k : Nat)) = some (x c k))
    (h0 : 0 ≤ base) (hlen : base + numLines b * b.osize 0 ≤ data.length) :
    ∃ r, runR2R K tag z fwd b (b.order 0) base ws data = .ok r ∧ r.length = data.length ∧
      (∀ c, 0 ≤ c → c < numLines b → ∀ k < (b.osize 0).toNat,
        rd r (base + c * b.osize 0 + (k : Nat)) = some (K.trigLine r2c c2r z fwd ((List.range (b.osize 0).toNat).map (x c)) k)) ∧
      ∀ a, (a < base ∨ base + numLines b * b.osize 0 ≤ a) → rd r a = rd data a := by
  obtain ⟨q1, q2, q3, q4, q5, q6, q7⟩ := extendedBox_fields z ho hb hn
  rw [workspaceR2R_eq ho hb hn] at hneed
  obtain rfl := Except.ok.inj hneed
  have p0 := osize_pos hb 0
  obtain ⟨N, hN⟩ : ∃ N : Nat, b.osize 0 = N := ⟨(b.osize 0).toNat, by omega⟩
  have hNt : (b.osize 0).toNat = N := by omega
  obtain ⟨L, hL⟩ : ∃ L : Nat, numLines b = L := ⟨(numLines b).toNat, by have := numLines_nonneg hb; omega⟩
  rw [hNt] at hn hg q4 q5 q6 q7 hws hdata ⊢
  have hext : z.extended (b.osize 0) = z.gain N := by rw [hN]; exact gain_extended z hn
  have hloose : ∀ (B : Nat) (c : Int), c < L → (c + 1) * (B : Int) ≤ L * B :=
    fun B c hc => mul_le_mul_of_nonneg_right (by omega) (Int.natCast_nonneg _)
  rw [hL] at hws q5 q6 hdata hlen q3 ⊢
  rw [hN] at hdata hlen ⊢
  generalize hgn : z.gain N = g at *
  have hwsn : L * g + 2 * (L * (g / 2 + 1)) + 1 ≤ ws.length := by exact_mod_cast hws
  have hLg : ((L : Int) * g + 1).toNat = L * g + 1 := by
    have : (L : Int) * g + 1 = ((L * g + 1 : Nat) : Int) := by push_cast; ring
    rw [this]; rfl
  have htake : (ws.take (L * g + 1)).length = L * g + 1 := by rw [List.length_take]; omega
  have hdrop : L * (g / 2 + 1) ≤ (K.toComplex (ws.drop (L * g + 1))).length := by
    apply toComplex_ge
    rw [List.length_drop]; omega
  have hhalf : ((g : Int)) / 2 + 1 = ((g / 2 + 1 : Nat) : Int) := by push_cast; rfl
  have hmid : (((g : Int) + 2) / 2).toNat = g / 2 + 1 := by omega
  cases fwd with
  | true =>
    show ∃ r, forwardR2R K tag z b (b.order 0) base ws data = .ok r ∧ _
    unfold forwardR2R
    simp only [q2, Bool.false_eq_true, if_false, hext, q5, hL, hLg, hhalf]
    rw [hN]
    obtain ⟨t1, a1, a2, a3, -⟩ := fold_blocks (A := 0) (B := g) (hi := (L * g + 1 : Nat)) (len := L * g + 1) (g := fun c m => signal z N (x c) m.toNat)
      (step := fun t i => runStmts (i * (g : Int)) (preForward z N fun k => rd data (base + i * (N : Int) + k)) t) (Int.natCast_nonneg _) L
      (fun c hc0 hc1 t ht => by
        obtain ⟨u1, u2, u3⟩ := preForward_ok z hn (x := fun k => rd data (base + c * (N : Int) + k)) (X := x c) (fun k hk => hdata c hc0 hc1 k hk)
        rw [hgn] at u2 u3
        have hl := hloose g c hc1
        rw [add_mul, one_mul] at hl
        have hcg : 0 ≤ c * (g : Int) := mul_nonneg hc0 (Int.natCast_nonneg _)
        obtain ⟨r, r1, r2, r3, r4⟩ := runStmts_ok (base := c * (g : Int)) _ _ t (fun i hi => hi.elim) u1 (fun w hw => by
          have := u2 w hw
          rw [ht]; push_cast; omega)
        refine ⟨r, r1, by omega, fun m hm0 hm1 => ?_, fun a ha => r4 a fun w hw => ?_⟩
        · rw [zero_add]
          exact r3 m (.inr (u3 m hm0 hm1))
        · have := u2 w hw
          push_cast at ha
          omega)
      _ htake
    rw [a1]
    simp only [bind, Except.bind]
    obtain ⟨t2, b1, b2, b3⟩ := lines_out hK.lanes (e := extendedBox z b) ho q2 (n := g) (m := g / 2 + 1) q7 (by omega)
      (ib := (extendedBox z b).osize 0 * (extendedBox z b).osize 1) (ob := (extendedBox z b).osize 0 * ((extendedBox z b).osize 1 / 2 + 1))
      (fun s v hv => hK.fromReal tag g s v hg hv) (src := t1) (dst := K.toComplex (ws.drop (L * g + 1))) (y := fun c i => signal z N (x c) i)
      (fun c hc0 hc1 i hi => by
        rw [q3] at hc1
        have := a3 c hc0 hc1 i (Int.natCast_nonneg _) (by exact_mod_cast hi)
        rw [zero_add] at this
        rw [this]; simp)
      (by rw [q3]; exact_mod_cast hdrop)
    have hex : execR2C K.lanes (K.fromReal tag ((extendedBox z b).size (b.order 0)).toNat) (extendedBox z b) (b.order 0) 0 0 t1
        (K.toComplex (ws.drop (L * g + 1))) = .ok t2 := by
      unfold execR2C
      dsimp only
      rw [q4, q1, if_pos rfl, if_pos rfl, hmid, hhalf, Int.toNat_natCast]
      exact b1
    rw [hex]
    simp only []
    rw [q3] at b3
    obtain ⟨t3, c1, c2, c3, c4⟩ := fold_blocks (A := base) (B := N) (hi := base + L * (N : Int)) (len := data.length)
      (g := fun c m => takenAt K z (r2c ((List.range g).map (signal z N (x c)))) m.toNat)
      (step := fun m i => writeAll (shiftBy (base + i * (N : Int)) (postForward K z N fun k => rd t2 (i * ((g / 2 + 1 : Nat) : Int) + k))) m)
      (Int.natCast_nonneg _) L
      (fun c hc0 hc1 t ht => by
        obtain ⟨u1, u2⟩ := postForward_ok (K := K) z (N := N) (y := fun k => rd t2 (c * ((g / 2 + 1 : Nat) : Int) + k)) (Y := r2c ((List.range g).map (signal z N (x c)))) hn
          (fun k hk => by
            rw [hgn] at hk
            exact b3 c hc0 hc1 k hk)
        have hl := hloose N c hc1
        rw [add_mul, one_mul] at hl
        have hcg : 0 ≤ c * (N : Int) := mul_nonneg hc0 (Int.natCast_nonneg _)
        obtain ⟨r, r1, r2, r3, r4⟩ := writeAll_block (C := base + c * (N : Int)) (B := N) (g := fun m => takenAt K z (r2c ((List.range g).map (signal z N (x c)))) m.toNat) (t := t)
          (by omega) (by omega) u1 u2
        exact ⟨r, r1, r2.trans ht, r3, fun a ha => r4 a (by omega)⟩)
      data rfl
    refine ⟨t3, c1, c2, ?_, c4⟩
    intro c hc0 hc1 k hk
    have := c3 c hc0 hc1 k (Int.natCast_nonneg _) (by exact_mod_cast hk)
    rw [(trigLine_entries K r2c c2r z hn (x c) k).1, hgn]
    simpa using this
  | false =>
    show ∃ r, backwardR2R K tag z b (b.order 0) base ws data = .ok r ∧ _
    unfold backwardR2R
    simp only [q2, Bool.false_eq_true, if_false, hext, q5, hL, hLg, hhalf]
    rw [hN]
    obtain ⟨t1, a1, a2, a3, -⟩ := fold_blocks (A := 0) (B := (g / 2 + 1 : Nat)) (hi := L * ((g / 2 + 1 : Nat) : Int))
      (len := (K.toComplex (ws.drop (L * g + 1))).length) (g := fun c m => halfLine K z N (x c) m.toNat)
      (step := fun t i => writeAll (shiftBy (i * ((g / 2 + 1 : Nat) : Int)) (preBackward K z N fun k => rd data (base + i * (N : Int) + k))) t)
      (Int.natCast_nonneg _) L
      (fun c hc0 hc1 t ht => by
        obtain ⟨u1, u2⟩ := preBackward_ok (K := K) z hn (x := fun k => rd data (base + c * (N : Int) + k)) (X := x c) (fun k hk => hdata c hc0 hc1 k hk)
        rw [hgn] at u1 u2
        have hl := hloose (g / 2 + 1) c hc1
        rw [add_mul, one_mul] at hl
        have hcg : 0 ≤ c * ((g / 2 + 1 : Nat) : Int) := mul_nonneg hc0 (Int.natCast_nonneg _)
        have hd' : (L : Int) * ((g / 2 + 1 : Nat) : Int) ≤ (K.toComplex (ws.drop (L * g + 1))).length := by exact_mod_cast hdrop
        obtain ⟨r, r1, r2, r3, r4⟩ := writeAll_block (C := c * ((g / 2 + 1 : Nat) : Int)) (B := (g / 2 + 1 : Nat))
          (g := fun m => halfLine K z N (x c) m.toNat) (t := t) hcg (by rw [ht]; omega) u1 u2
        refine ⟨r, r1, r2.trans ht, fun m hm0 hm1 => ?_, fun a ha => r4 a (by omega)⟩
        rw [zero_add]
        exact r3 m hm0 hm1)
      _ rfl
    rw [a1]
    simp only [bind, Except.bind]
    obtain ⟨t2, b1, b2, b3⟩ := lines_out hK.lanes (e := extendedBox z b) ho q2 (n := g / 2 + 1) (m := g) (by omega) q7
      (ib := (extendedBox z b).osize 0 * ((extendedBox z b).osize 1 / 2 + 1)) (ob := (extendedBox z b).osize 0 * (extendedBox z b).osize 1)
      (fun s v hv => hK.toReal tag g s v hg hv) (src := t1) (dst := ws.take (L * g + 1)) (y := fun c i => halfLine K z N (x c) i)
      (fun c hc0 hc1 i hi => by
        rw [q3] at hc1
        have := a3 c hc0 hc1 i (Int.natCast_nonneg _) (by exact_mod_cast hi)
        rw [zero_add] at this
        rw [this]; simp)
      (by rw [q3, htake]; push_cast; omega)
    have hex : execC2R K.lanes (K.toReal tag ((extendedBox z b).size (b.order 0)).toNat) (extendedBox z b) (b.order 0) 0 0 t1
        (ws.take (L * g + 1)) = .ok t2 := by
      unfold execC2R
      dsimp only
      rw [q4, q1, if_pos rfl, if_pos rfl, hmid, hhalf, Int.toNat_natCast]
      exact b1
    rw [hex]
    simp only []
    rw [q3] at b3
    obtain ⟨t3, c1, c2, c3, c4⟩ := fold_blocks (A := base) (B := N) (hi := base + L * (N : Int)) (len := data.length)
      (g := fun c m => c2r g ((List.range (g / 2 + 1)).map (halfLine K z N (x c))) (z.pick m.toNat))
      (step := fun m i => writeAll (shiftBy (base + i * (N : Int)) (postBackward z N fun k => rd t2 (i * (g : Int) + k))) m)
      (Int.natCast_nonneg _) L
      (fun c hc0 hc1 t ht => by
        obtain ⟨u1, u2⟩ := postBackward_ok z (N := N) (y := fun k => rd t2 (c * (g : Int) + k))
          (Y := c2r g ((List.range (g / 2 + 1)).map (halfLine K z N (x c)))) hn
          (fun k hk => by
            rw [hgn] at hk
            exact b3 c hc0 hc1 k hk)
        have hl := hloose N c hc1
        rw [add_mul, one_mul] at hl
        have hcg : 0 ≤ c * (N : Int) := mul_nonneg hc0 (Int.natCast_nonneg _)
        obtain ⟨r, r1, r2, r3, r4⟩ := writeAll_block (C := base + c * (N : Int)) (B := N) (g := fun m => c2r g ((List.range (g / 2 + 1)).map (halfLine K z N (x c))) (z.pick m.toNat)) (t := t)
          (by omega) (by omega) u1 u2
        exact ⟨r, r1, r2.trans ht, r3, fun a ha => r4 a (by omega)⟩)
      data rfl
    refine ⟨t3, c1, c2, ?_, c4⟩
    intro c hc0 hc1 k hk
    have := c3 c hc0 hc1 k (Int.natCast_nonneg _) (by exact_mod_cast hk)
    rw [(trigLine_entries K r2c c2r z hn (x c) k).2, hgn]
    simpa using this

end

end Verif
