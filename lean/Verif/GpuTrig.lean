import Verif.GpuLemmas

/-!
# Lemmas about the sine and cosine transforms of the GPU backends
-/

namespace Verif
open Stock

/-- The writes are the values of `g` below `lim` and cover the entries below `B`. -/
structure Writes {γ : Type} (l : List (Int × Option γ)) (B lim : Int) (g : Int → γ) : Prop where
  val : ∀ w ∈ l, (0 ≤ w.1 ∧ w.1 < lim) ∧ w.2 = some (g w.1)
  cover : ∀ m, 0 ≤ m → m < B → ∃ w ∈ l, w.1 = m

theorem Writes.run {γ : Type} {l l' : List (Int × Option γ)} {B lim : Int} {g : Int → γ} (h : Writes l B lim g) (hB : B ≤ lim) (hl : OrderOf l' l) {C : Int}
    {t : List γ} (h0 : 0 ≤ C) (hlen : C + lim ≤ t.length) :
    ∃ t', writeAll (shiftBy C l') t = .ok t' ∧ t'.length = t.length ∧ (∀ m, 0 ≤ m → m < B → rd t' (C + m) = some (g m)) ∧
      ∀ a, (a < C ∨ C + lim ≤ a) → rd t' a = rd t a := by
  have hm : ∀ u, u ∈ shiftBy C l' → ∃ w ∈ l, u = (C + w.1, some (g w.1)) := by
    intro u hu
    obtain ⟨w, hw', rfl⟩ := List.mem_map.1 hu
    refine ⟨w, (OrderOf.mem hl).1 hw', ?_⟩
    rw [(h.val w ((OrderOf.mem hl).1 hw')).2]
  obtain ⟨r, r1, r2, r3, r4⟩ := writeAll_ok (shiftBy C l') t
    (fun u hu => by
      obtain ⟨w, hw', rfl⟩ := hm u hu
      have := (h.val w hw').1
      exact ⟨rfl, by dsimp only; omega, by dsimp only; omega⟩)
    (fun u hu v hv h => by
      obtain ⟨w, hw', rfl⟩ := hm u hu
      obtain ⟨w', hw'', rfl⟩ := hm v hv
      dsimp only at h ⊢
      rw [show w.1 = w'.1 by omega])
  refine ⟨r, r1, r2, ?_, ?_⟩
  · intro m h0 h1
    obtain ⟨w, hw', rfl⟩ := h.cover m h0 h1
    rw [r3 (C + w.1, w.2) (List.mem_map.2 ⟨w, (OrderOf.mem hl).2 hw', rfl⟩), (h.val w hw').2]
  · intro a ha
    refine r4 a fun u hu => ?_
    obtain ⟨w, hw', rfl⟩ := hm u hu
    have := (h.val w hw').1
    dsimp only
    omega

/-- The real and imaginary parts of a sequence of complex numbers in an array of reals. -/
noncomputable def flat (s : Nat → ℂ) (m : Int) : ℝ := if m % 2 = 0 then (s (m / 2).toNat).re else (s (m / 2).toNat).im

theorem flat_even (s : Nat → ℂ) (k : Nat) : flat s (2 * k) = (s k).re := by
  unfold flat
  rw [if_pos (by omega), show (2 * (k : Int) / 2).toNat = k by omega]

theorem flat_odd (s : Nat → ℂ) (k : Nat) : flat s (2 * k + 1) = (s k).im := by
  unfold flat
  rw [if_neg (by omega), show ((2 * (k : Int) + 1) / 2).toNat = k by omega]

/-- What the four processors of a transform do. -/
structure Processors (all : Stage → Trig → Int → (Int → Option ℝ) → List (Int × Option ℝ)) (z : Trig) : Prop where
  preForward : ∀ (N : Nat), z.least ≤ N → ∀ (x : Int → Option ℝ) (X : Nat → ℝ), (∀ k : Nat, k < N → x k = some (X k)) →
    Writes (all .preForward z N x) (z.gain N) (z.gain N + 1) fun m => signal z N X m.toNat
  postForward : ∀ (N : Nat), z.least ≤ N → ∀ (y : Int → Option ℝ) (V : Nat → ℝ),
    (∀ k : Nat, k ≤ z.gain N / 2 → y (2 * k) = some (spectrum z N V k).re ∧ y (2 * k + 1) = some (spectrum z N V k).im) →
    Writes (all .postForward z N y) N N fun m => V m.toNat
  preBackward : ∀ (N : Nat), z.least ≤ N → ∀ (x : Int → Option ℝ) (X : Nat → ℝ), (∀ k : Nat, k < N → x k = some (X k)) →
    Writes (all .preBackward z N x) (2 * (z.gain N / 2 + 1 : Nat)) (2 * (z.gain N / 2 + 1 : Nat)) (flat (spectrum z N X))
  postBackward : ∀ (N : Nat), z.least ≤ N → ∀ (y : Int → Option ℝ) (Y : Nat → ℝ), (∀ k : Nat, k < z.gain N → y k = some (Y k)) →
    Writes (all .postBackward z N y) N N fun m => Y (z.pick m.toNat)

/-- The statements of the thread with index `i`. -/
def threadOf (s : Stage) (z : Trig) (n : Int) (x : Int → Option ℝ) (i : Nat) : List (Int × Option ℝ) :=
  match s with
  | .preForward => gpuPreForward z n x 0 i
  | .postForward => gpuPostForward z n x 0 i
  | .preBackward => gpuPreBackward z n x 0 i
  | .postBackward => gpuPostBackward z n x 0 i

theorem mem_trigAll (s : Stage) (z : Trig) (N : Nat) (x : Int → Option ℝ) (w : Int × Option ℝ) :
    (w ∈ trigAll s z N x → ∃ i : Nat, w ∈ threadOf s z N x i) ∧ ((∃ i : Nat, i < N ∧ w ∈ threadOf s z N x i) → w ∈ trigAll s z N x) := by
  have e : ∀ b t : Nat, ((b : Int) * blkX + t) = ((0 : Nat) : Int) * blkX + ((b * blkX + t : Nat) : Int) := by
    intro b t; push_cast; ring
  constructor
  · intro h
    obtain ⟨b, -, t, -, h⟩ := mem_allThreads.1 h
    refine ⟨b * blkX + t, ?_⟩
    cases s <;> simpa only [threadOf, gpuPreForward, gpuPostForward, gpuPreBackward, gpuPostBackward, e b t] using h
  · rintro ⟨i, hi, h⟩
    have hb : i / blkX < trigBlocks N := by
      unfold trigBlocks blkX
      omega
    refine mem_allThreads.2 ⟨i / blkX, hb, i % blkX, Nat.mod_lt _ (by decide), ?_⟩
    have e' := e (i / blkX) (i % blkX)
    rw [Nat.div_add_mod'] at e'
    cases s <;> simpa only [threadOf, gpuPreForward, gpuPostForward, gpuPreBackward, gpuPostBackward, e'] using h

section
variable {N : Nat} {x : Int → Option ℝ} {X : Nat → ℝ}

theorem val_sub {a : Int} (hx : ∀ k : Nat, k < N → x k = some (X k)) {k : Nat} (ha : a = k) (hk : k < N) : x a = some (X k) := by
  rw [ha, hx k hk]

theorem gpu_preForward (z : Trig) (hN : z.least ≤ N) (hx : ∀ k : Nat, k < N → x k = some (X k)) :
    Writes (trigAll .preForward z N x) (z.gain N) (z.gain N + 1) fun m => signal z N X m.toNat := by
  constructor
  · intro w hw
    obtain ⟨i, hw⟩ := (mem_trigAll _ _ _ _ _).1 hw
    cases z with
    | cos =>
      simp only [threadOf, gpuPreForward, Nat.cast_zero, zero_mul, zero_add, List.mem_append, List.mem_singleton, Trig.gain, Trig.least] at hw hN ⊢
      rcases hw with (hw | rfl) | hw
      · split at hw
        · rename_i hi
          have hi' : i < N := by exact_mod_cast hi
          simp only [List.mem_cons, List.not_mem_nil, or_false] at hw
          rcases hw with rfl | rfl
          · refine ⟨⟨by dsimp only; omega, by dsimp only; push_cast; omega⟩, ?_⟩
            dsimp only
            rw [show (2 * (i : Int)).toNat = 2 * i by omega]
            simp [signal]
          · refine ⟨⟨by dsimp only; omega, by dsimp only; push_cast; omega⟩, ?_⟩
            dsimp only
            rw [show (2 * (i : Int) + 1).toNat = 2 * i + 1 by omega, hx i hi']
            simp only [signal]
            rw [if_neg (by omega), if_pos (by omega), show (2 * i + 1) / 2 = i by omega]
        · exact absurd hw (List.not_mem_nil)
      · refine ⟨⟨by dsimp only; omega, by dsimp only; push_cast; omega⟩, ?_⟩
        dsimp only
        rw [show (2 * (N : Int)).toNat = 2 * N by omega]
        simp [signal]
      · split at hw
        · rename_i hi
          have hi' : i < N := by exact_mod_cast hi
          simp only [List.mem_cons, List.not_mem_nil, or_false] at hw
          rcases hw with rfl | rfl
          · refine ⟨⟨by dsimp only; omega, by dsimp only; push_cast; omega⟩, ?_⟩
            dsimp only
            rw [show (4 * (N : Int) - 2 * i).toNat = 4 * N - 2 * i by omega]
            simp only [signal]
            rw [if_pos (by omega)]
          · refine ⟨⟨by dsimp only; omega, by dsimp only; push_cast; omega⟩, ?_⟩
            dsimp only
            rw [show (4 * (N : Int) - 2 * i - 1).toNat = 4 * N - 2 * i - 1 by omega, hx i hi']
            simp only [signal]
            rw [if_neg (by omega), if_neg (by omega), show (4 * N - (4 * N - 2 * i - 1)) / 2 = i by omega]
        · exact absurd hw (List.not_mem_nil)
    | sin =>
      simp only [threadOf, gpuPreForward, Nat.cast_zero, zero_mul, zero_add, List.mem_append, List.mem_singleton, Trig.gain, Trig.least] at hw hN ⊢
      rcases hw with (hw | rfl) | hw
      · split at hw
        · rename_i hi
          have hi' : i < N := by exact_mod_cast hi
          simp only [List.mem_cons, List.not_mem_nil, or_false] at hw
          rcases hw with rfl | rfl
          · refine ⟨⟨by dsimp only; omega, by dsimp only; push_cast; omega⟩, ?_⟩
            dsimp only
            rw [show (2 * (i : Int)).toNat = 2 * i by omega]
            simp [signal]
          · refine ⟨⟨by dsimp only; omega, by dsimp only; push_cast; omega⟩, ?_⟩
            dsimp only
            rw [show (2 * (i : Int) + 1).toNat = 2 * i + 1 by omega, hx i hi']
            simp only [signal]
            rw [if_neg (by omega), if_pos (by omega), show (2 * i + 1) / 2 = i by omega]
        · exact absurd hw (List.not_mem_nil)
      · refine ⟨⟨by dsimp only; omega, by dsimp only; push_cast; omega⟩, ?_⟩
        dsimp only
        rw [show (2 * (N : Int)).toNat = 2 * N by omega]
        simp [signal]
      · split at hw
        · rename_i hi
          have hi' : i < N := by exact_mod_cast hi
          simp only [List.mem_cons, List.not_mem_nil, or_false] at hw
          rcases hw with rfl | rfl
          · refine ⟨⟨by dsimp only; omega, by dsimp only; push_cast; omega⟩, ?_⟩
            dsimp only
            rw [show (4 * (N : Int) - 2 * i).toNat = 4 * N - 2 * i by omega]
            simp only [signal]
            rw [if_pos (by omega)]
          · refine ⟨⟨by dsimp only; omega, by dsimp only; push_cast; omega⟩, ?_⟩
            dsimp only
            rw [show (4 * (N : Int) - 2 * i - 1).toNat = 4 * N - 2 * i - 1 by omega, hx i hi']
            simp only [signal]
            rw [if_neg (by omega), if_neg (by omega), show (4 * N - (4 * N - 2 * i - 1)) / 2 = i by omega]
            rfl
        · exact absurd hw (List.not_mem_nil)
    | cos1 =>
      simp only [threadOf, gpuPreForward, Nat.cast_zero, zero_mul, zero_add, List.mem_append, Trig.gain, Trig.least] at hw hN ⊢
      rcases hw with hw | hw
      · split at hw
        · rename_i hi
          have hi' : i < N := by exact_mod_cast hi
          simp only [List.mem_cons, List.not_mem_nil, or_false] at hw
          rcases hw with rfl | rfl
          · refine ⟨⟨by dsimp only; omega, by dsimp only; push_cast; omega⟩, ?_⟩
            dsimp only
            rw [show (2 * (i : Int)).toNat = 2 * i by omega, hx i hi']
            simp only [signal]
            rw [if_neg (by omega)]
            split
            · rw [show 2 * i / 2 = i by omega]
            · rw [show (4 * (N - 1) - 2 * i) / 2 = i by omega]
          · refine ⟨⟨by dsimp only; omega, by dsimp only; push_cast; omega⟩, ?_⟩
            dsimp only
            rw [show (2 * (i : Int) + 1).toNat = 2 * i + 1 by omega]
            simp only [signal]
            rw [if_pos (by omega)]
        · exact absurd hw (List.not_mem_nil)
      · split at hw
        · rename_i hi
          have hi' : 0 < i ∧ i < N := ⟨by exact_mod_cast hi.1, by exact_mod_cast hi.2⟩
          simp only [List.mem_cons, List.not_mem_nil, or_false] at hw
          rcases hw with rfl | rfl
          · refine ⟨⟨by dsimp only; omega, by dsimp only; push_cast; omega⟩, ?_⟩
            dsimp only
            rw [show (4 * ((N : Int) - 1) - 2 * i).toNat = 4 * (N - 1) - 2 * i by omega, hx i hi'.2]
            simp only [signal]
            rw [if_neg (by omega), if_neg (by omega), show (4 * (N - 1) - (4 * (N - 1) - 2 * i)) / 2 = i by omega]
          · refine ⟨⟨by dsimp only; omega, by dsimp only; push_cast; omega⟩, ?_⟩
            dsimp only
            rw [show (4 * ((N : Int) - 1) - 2 * i + 1).toNat = 4 * (N - 1) - 2 * i + 1 by omega]
            simp only [signal]
            rw [if_pos (by omega)]
        · exact absurd hw (List.not_mem_nil)
  · intro m h0 h1
    cases z with
    | cos =>
      simp only [Trig.gain, Trig.least] at h1 hN
      push_cast at h1
      by_cases hm : m < 2 * N
      · refine ⟨if m % 2 = 0 then (m, some 0) else (m, x (m / 2).toNat), (mem_trigAll _ _ _ _ _).2 ⟨(m / 2).toNat, by omega, ?_⟩, by split <;> rfl⟩
        simp only [threadOf, gpuPreForward, Nat.cast_zero, zero_mul, zero_add]
        rw [if_pos (by omega)]
        rw [show (((m / 2).toNat : Nat) : Int) = m / 2 by omega]
        by_cases h2 : m % 2 = 0
        · rw [if_pos h2, show 2 * (m / 2) = m by omega]; simp
        · rw [if_neg h2, show 2 * (m / 2) + 1 = m by omega]; simp
      · by_cases hm2 : m = 2 * N
        · refine ⟨(2 * N, some 0), (mem_trigAll _ _ _ _ _).2 ⟨0, by omega, ?_⟩, hm2.symm⟩
          simp [threadOf, gpuPreForward]
        · refine ⟨if m % 2 = 0 then (m, some 0) else (m, x ((4 * N - m) / 2).toNat), (mem_trigAll _ _ _ _ _).2 ⟨((4 * N - m) / 2).toNat, by omega, ?_⟩, by split <;> rfl⟩
          simp only [threadOf, gpuPreForward, Nat.cast_zero, zero_mul, zero_add]
          have hl : ((((4 * N - m) / 2).toNat : Nat) : Int) < N := by omega
          rw [if_pos hl, if_pos hl]
          rw [show ((((4 * (N : Int) - m) / 2).toNat : Nat) : Int) = (4 * N - m) / 2 by omega]
          by_cases h2 : m % 2 = 0
          · rw [if_pos h2, show 4 * (N : Int) - 2 * ((4 * N - m) / 2) = m by omega]; simp
          · rw [if_neg h2, show 4 * (N : Int) - 2 * ((4 * N - m) / 2) - 1 = m by omega]; simp
    | sin =>
      simp only [Trig.gain, Trig.least] at h1 hN
      push_cast at h1
      by_cases hm : m < 2 * N
      · refine ⟨if m % 2 = 0 then (m, some 0) else (m, x (m / 2).toNat), (mem_trigAll _ _ _ _ _).2 ⟨(m / 2).toNat, by omega, ?_⟩, by split <;> rfl⟩
        simp only [threadOf, gpuPreForward, Nat.cast_zero, zero_mul, zero_add]
        rw [if_pos (by omega)]
        rw [show (((m / 2).toNat : Nat) : Int) = m / 2 by omega]
        by_cases h2 : m % 2 = 0
        · rw [if_pos h2, show 2 * (m / 2) = m by omega]; simp
        · rw [if_neg h2, show 2 * (m / 2) + 1 = m by omega]; simp
      · by_cases hm2 : m = 2 * N
        · refine ⟨(2 * N, some 0), (mem_trigAll _ _ _ _ _).2 ⟨0, by omega, ?_⟩, hm2.symm⟩
          simp [threadOf, gpuPreForward]
        · refine ⟨if m % 2 = 0 then (m, some 0) else (m, (x ((4 * N - m) / 2).toNat).map fun y => -y), (mem_trigAll _ _ _ _ _).2 ⟨((4 * N - m) / 2).toNat, by omega, ?_⟩, by split <;> rfl⟩
          simp only [threadOf, gpuPreForward, Nat.cast_zero, zero_mul, zero_add]
          have hl : ((((4 * N - m) / 2).toNat : Nat) : Int) < N := by omega
          rw [if_pos hl, if_pos hl]
          rw [show ((((4 * (N : Int) - m) / 2).toNat : Nat) : Int) = (4 * N - m) / 2 by omega]
          by_cases h2 : m % 2 = 0
          · rw [if_pos h2, show 4 * (N : Int) - 2 * ((4 * N - m) / 2) = m by omega]; simp
          · rw [if_neg h2, show 4 * (N : Int) - 2 * ((4 * N - m) / 2) - 1 = m by omega]; simp
    | cos1 =>
      simp only [Trig.gain, Trig.least] at h1 hN
      by_cases hm : m < 2 * N
      · refine ⟨if m % 2 = 0 then (m, x (m / 2).toNat) else (m, some 0), (mem_trigAll _ _ _ _ _).2 ⟨(m / 2).toNat, by omega, ?_⟩, by split <;> rfl⟩
        simp only [threadOf, gpuPreForward, Nat.cast_zero, zero_mul, zero_add]
        rw [if_pos (by omega)]
        rw [show (((m / 2).toNat : Nat) : Int) = m / 2 by omega]
        by_cases h2 : m % 2 = 0
        · rw [if_pos h2, show 2 * (m / 2) = m by omega]; simp
        · rw [if_neg h2, show 2 * (m / 2) + 1 = m by omega]; simp
      · refine ⟨if m % 2 = 0 then (m, x ((4 * (N - 1) - m + 1) / 2).toNat) else (m, some 0),
          (mem_trigAll _ _ _ _ _).2 ⟨((4 * (N - 1) - m + 1) / 2).toNat, by omega, ?_⟩, by split <;> rfl⟩
        simp only [threadOf, gpuPreForward, Nat.cast_zero, zero_mul, zero_add]
        have hl : ((((4 * (N - 1) - m + 1) / 2).toNat : Nat) : Int) < N := by omega
        have hl' : 0 < ((((4 * (N - 1) - m + 1) / 2).toNat : Nat) : Int) ∧ ((((4 * (N - 1) - m + 1) / 2).toNat : Nat) : Int) < N := by omega
        rw [if_pos hl, if_pos hl']
        rw [show ((((4 * ((N : Int) - 1) - m + 1) / 2).toNat : Nat) : Int) = (4 * (N - 1) - m + 1) / 2 by omega]
        by_cases h2 : m % 2 = 0
        · rw [if_pos h2, show 4 * ((N : Int) - 1) - 2 * ((4 * (N - 1) - m + 1) / 2) = m by omega]; simp
        · rw [if_neg h2, show 4 * ((N : Int) - 1) - 2 * ((4 * (N - 1) - m + 1) / 2) + 1 = m by omega]; simp

theorem gpu_postForward (z : Trig) (hN : z.least ≤ N) {y : Int → Option ℝ} {V : Nat → ℝ}
    (hy : ∀ k : Nat, k ≤ z.gain N / 2 → y (2 * k) = some (spectrum z N V k).re ∧ y (2 * k + 1) = some (spectrum z N V k).im) :
    Writes (trigAll .postForward z N y) N N fun m => V m.toNat := by
  constructor
  · intro w hw
    obtain ⟨i, hw⟩ := (mem_trigAll _ _ _ _ _).1 hw
    simp only [threadOf, gpuPostForward, Nat.cast_zero, zero_mul, zero_add] at hw
    split at hw
    swap
    · exact absurd hw (List.not_mem_nil)
    rename_i hi
    have hi' : i < N := by exact_mod_cast hi
    cases z with
    | cos =>
      simp only [List.mem_singleton] at hw
      rw [hw]
      refine ⟨⟨by dsimp only; omega, hi⟩, ?_⟩
      dsimp only
      rw [(hy i (by simp only [Trig.gain]; omega)).1, Int.toNat_natCast]
      simp [spectrum, hi']
    | sin =>
      simp only [List.mem_singleton] at hw
      rw [hw]
      refine ⟨⟨by dsimp only; omega, hi⟩, ?_⟩
      dsimp only
      have := (hy (i + 1) (by simp only [Trig.gain]; omega)).2
      push_cast at this
      rw [this, Int.toNat_natCast]
      simp [spectrum, hi']
    | cos1 =>
      simp only [Trig.least] at hN
      simp only [List.mem_singleton] at hw
      rw [hw]
      refine ⟨⟨by dsimp only; omega, hi⟩, ?_⟩
      dsimp only
      rw [(hy i (by simp only [Trig.gain]; omega)).1, Int.toNat_natCast]
      simp [spectrum, hi']
  · intro m h0 h1
    refine ⟨(m, match z with | .cos => y (2 * m) | .sin => (y (2 * (m + 1) + 1)).map fun v => -v | .cos1 => y (2 * m)),
      (mem_trigAll _ _ _ _ _).2 ⟨m.toNat, by omega, ?_⟩, rfl⟩
    simp only [threadOf, gpuPostForward, Nat.cast_zero, zero_mul, zero_add]
    rw [if_pos (by omega), Int.toNat_of_nonneg h0]
    cases z <;> simp

theorem gpu_postBackward (z : Trig) (hN : z.least ≤ N) {y : Int → Option ℝ} {Y : Nat → ℝ} (hy : ∀ k : Nat, k < z.gain N → y k = some (Y k)) :
    Writes (trigAll .postBackward z N y) N N fun m => Y (z.pick m.toNat) := by
  constructor
  · intro w hw
    obtain ⟨i, hw⟩ := (mem_trigAll _ _ _ _ _).1 hw
    simp only [threadOf, gpuPostBackward, Nat.cast_zero, zero_mul, zero_add] at hw
    split at hw
    swap
    · exact absurd hw (List.not_mem_nil)
    rename_i hi
    have hi' : i < N := by exact_mod_cast hi
    have hp := hy _ (pick_lt z hN hi')
    refine ⟨⟨?_, ?_⟩, ?_⟩
    · cases z <;> simp only [List.mem_singleton] at hw <;> rw [hw] <;> dsimp only <;> omega
    · cases z <;> simp only [List.mem_singleton] at hw <;> rw [hw] <;> dsimp only <;> omega
    · cases z <;> simp only [List.mem_singleton] at hw <;> rw [hw] <;> dsimp only <;> rw [Int.toNat_natCast] <;> rw [← hp] <;>
        simp only [Trig.pick] <;> push_cast <;> ring_nf
  · intro m h0 h1
    refine ⟨(m, match z with | .cos => y (1 + 2 * m) | .sin => y (1 + 2 * m) | .cos1 => y (2 * m)),
      (mem_trigAll _ _ _ _ _).2 ⟨m.toNat, by omega, ?_⟩, rfl⟩
    simp only [threadOf, gpuPostBackward, Nat.cast_zero, zero_mul, zero_add]
    rw [if_pos (by omega), Int.toNat_of_nonneg h0]
    cases z <;> simp

/-- Membership in a pair of writes of a complex number. -/
theorem flat_pair {w : Int × Option ℝ} {s : Nat → ℂ} {k M : Nat} {a b : Option ℝ} (hk : k < M) (ha : a = some (s k).re) (hb : b = some (s k).im)
    (hw : w ∈ [((2 * (k : Int)), a), (2 * (k : Int) + 1, b)]) :
    (0 ≤ w.1 ∧ w.1 < 2 * (M : Int)) ∧ w.2 = some (flat s w.1) := by
  simp only [List.mem_cons, List.not_mem_nil, or_false] at hw
  rcases hw with rfl | rfl
  · exact ⟨⟨by dsimp only; omega, by dsimp only; omega⟩, by dsimp only; rw [flat_even, ha]⟩
  · exact ⟨⟨by dsimp only; omega, by dsimp only; omega⟩, by dsimp only; rw [flat_odd, hb]⟩

theorem gpu_preBackward (z : Trig) (hN : z.least ≤ N) (hx : ∀ k : Nat, k < N → x k = some (X k)) :
    Writes (trigAll .preBackward z N x) (2 * (z.gain N / 2 + 1 : Nat)) (2 * (z.gain N / 2 + 1 : Nat)) (flat (spectrum z N X)) := by
  constructor
  · intro w hw
    obtain ⟨i, hw⟩ := (mem_trigAll _ _ _ _ _).1 hw
    cases z with
    | cos =>
      simp only [threadOf, gpuPreBackward, Nat.cast_zero, zero_mul, zero_add, List.mem_append, Trig.gain, Trig.least] at hw hN ⊢
      rcases hw with (hw | hw) | hw
      · split at hw
        · rename_i hi
          have hi' : i < N := by exact_mod_cast hi
          refine flat_pair (k := i) (by omega) ?_ ?_ hw
          · rw [hx i hi']; simp [spectrum, hi']
          · simp [spectrum, hi']
        · exact absurd hw (List.not_mem_nil)
      · split at hw
        · refine flat_pair (k := N) (by omega) ?_ ?_ hw <;> simp [spectrum]
        · exact absurd hw (List.not_mem_nil)
      · split at hw
        · rename_i hi
          have hi' : i < N := by exact_mod_cast hi
          have e : (N : Int) + i + 1 = ((N + i + 1 : Nat) : Int) := by push_cast; ring
          rw [e] at hw
          have hs : spectrum .cos N X (N + i + 1) = ⟨-X (N - i - 1), 0⟩ := by
            simp only [spectrum]
            rw [if_neg (by omega), if_neg (by omega), show 2 * N - (N + i + 1) = N - i - 1 by omega]
          refine flat_pair (k := N + i + 1) (by omega) ?_ ?_ hw
          · rw [hs, val_sub hx (k := N - i - 1) (by omega) (by omega)]; rfl
          · rw [hs]
        · exact absurd hw (List.not_mem_nil)
    | sin =>
      simp only [threadOf, gpuPreBackward, Nat.cast_zero, zero_mul, zero_add, List.mem_append, Trig.gain, Trig.least] at hw hN ⊢
      rcases hw with (hw | hw) | hw
      · split at hw
        · refine flat_pair (k := 0) (s := spectrum .sin N X) (a := some 0) (b := some 0) (by omega) ?_ ?_ (by simpa using hw) <;> simp [spectrum]
        · exact absurd hw (List.not_mem_nil)
      · split at hw
        · rename_i hi
          have hi' : i < N := by exact_mod_cast hi
          have e : (i : Int) + 1 = ((i + 1 : Nat) : Int) := by push_cast; ring
          rw [e] at hw
          have hs : spectrum .sin N X (i + 1) = ⟨0, -X i⟩ := by
            simp only [spectrum]
            rw [if_neg (by omega), if_pos (by omega), Nat.add_sub_cancel]
          refine flat_pair (k := i + 1) (by omega) ?_ ?_ hw
          · rw [hs]
          · rw [hs, hx i hi']; rfl
        · exact absurd hw (List.not_mem_nil)
      · split at hw
        · have hs : spectrum .sin N X (2 * N) = 0 := by
            simp only [spectrum]
            rw [if_neg (by omega), if_neg (by omega), if_neg (by omega)]
          refine flat_pair (k := 2 * N) (s := spectrum .sin N X) (a := some 0) (b := some 0) (by omega) (by rw [hs]; rfl) (by rw [hs]; rfl) ?_
          rw [show 2 * ((2 * N : Nat) : Int) = 4 * N by push_cast; ring]
          exact hw
        · rename_i hne
          split at hw
          · rename_i hi
            have hi' : i < N := by exact_mod_cast hi
            have e : (N : Int) + i + 1 = ((N + i + 1 : Nat) : Int) := by push_cast; ring
            rw [e] at hw
            have hs : spectrum .sin N X (N + i + 1) = ⟨0, -X (N - i - 2)⟩ := by
              simp only [spectrum]
              rw [if_neg (by omega), if_neg (by omega), if_pos (by omega), show 2 * N - (N + i + 1) - 1 = N - i - 2 by omega]
            refine flat_pair (k := N + i + 1) (by omega) ?_ ?_ hw
            · rw [hs]
            · rw [hs, val_sub hx (k := N - i - 2) (by omega) (by omega)]; rfl
          · exact absurd hw (List.not_mem_nil)
    | cos1 =>
      simp only [threadOf, gpuPreBackward, Nat.cast_zero, zero_mul, zero_add, List.mem_append, Trig.gain, Trig.least] at hw hN ⊢
      rcases hw with hw | hw
      · split at hw
        · rename_i hi
          have hi' : i < N := by exact_mod_cast hi
          refine flat_pair (k := i) (by omega) ?_ ?_ hw
          · rw [hx i hi']; simp [spectrum, hi']
          · simp [spectrum, hi']
        · exact absurd hw (List.not_mem_nil)
      · split at hw
        · rename_i hi
          have hi' : i < N := by exact_mod_cast hi
          have e : 4 * ((N : Int) - 1) - 2 * i = 2 * ((2 * (N - 1) - i : Nat) : Int) := by omega
          rw [e] at hw
          have hs : spectrum .cos1 N X (2 * (N - 1) - i) = ⟨X i, 0⟩ := by
            simp only [spectrum]
            split
            · rw [show 2 * (N - 1) - i = i by omega]
            · rw [show 2 * (N - 1) - (2 * (N - 1) - i) = i by omega]
          refine flat_pair (k := 2 * (N - 1) - i) (by omega) ?_ ?_ hw
          · rw [hs, hx i hi']
          · rw [hs]
        · exact absurd hw (List.not_mem_nil)
  · intro m h0 h1
    have fin : ∀ (i : Nat) (k : Int) (a b : Option ℝ), i < N → k = m / 2 → (∀ w, w ∈ [(2 * k, a), (2 * k + 1, b)] → w ∈ threadOf .preBackward z N x i) →
        ∃ w ∈ trigAll .preBackward z N x, w.1 = m := by
      intro i k a b hi hk h
      by_cases h2 : m % 2 = 0
      · exact ⟨(2 * k, a), (mem_trigAll _ _ _ _ _).2 ⟨i, hi, h _ (by simp)⟩, by dsimp only; omega⟩
      · exact ⟨(2 * k + 1, b), (mem_trigAll _ _ _ _ _).2 ⟨i, hi, h _ (by simp)⟩, by dsimp only; omega⟩
    cases z with
    | cos =>
      simp only [Trig.gain, Trig.least] at h1 hN
      by_cases c1 : m / 2 < N
      · refine fin (m / 2).toNat (m / 2) (x (m / 2)) (some 0) (by omega) rfl fun w hw => ?_
        simp only [threadOf, gpuPreBackward, Nat.cast_zero, zero_mul, zero_add, List.mem_append]
        rw [Int.toNat_of_nonneg (by omega), if_pos c1]
        exact .inl (.inl hw)
      · by_cases c2 : m / 2 = N
        · refine fin 0 N (some 0) (some 0) (by omega) c2.symm fun w hw => ?_
          simp only [threadOf, gpuPreBackward, Nat.cast_zero, zero_mul, zero_add, List.mem_append, if_true]
          exact .inl (.inr hw)
        · obtain ⟨i, hi⟩ : ∃ i : Nat, (i : Int) = m / 2 - N - 1 := ⟨(m / 2 - N - 1).toNat, by omega⟩
          have hiN : (i : Int) < N := by omega
          refine fin i (N + i + 1) ((x (N - i - 1)).map fun v => -v) (some 0) (by omega) (by omega) fun w hw => ?_
          simp only [threadOf, gpuPreBackward, Nat.cast_zero, zero_mul, zero_add, List.mem_append]
          rw [if_pos hiN, if_pos hiN]
          exact .inr hw
    | sin =>
      simp only [Trig.gain, Trig.least] at h1 hN
      by_cases c0 : m / 2 = 0
      · refine fin 0 0 (some 0) (some 0) (by omega) c0.symm fun w hw => ?_
        simp only [threadOf, gpuPreBackward, Nat.cast_zero, zero_mul, zero_add, List.mem_append, if_true]
        exact .inl (.inl (by simpa using hw))
      · by_cases c1 : m / 2 ≤ N
        · obtain ⟨i, hi⟩ : ∃ i : Nat, (i : Int) = m / 2 - 1 := ⟨(m / 2 - 1).toNat, by omega⟩
          have hiN : (i : Int) < N := by omega
          refine fin i (i + 1) (some 0) ((x i).map fun v => -v) (by omega) (by omega) fun w hw => ?_
          simp only [threadOf, gpuPreBackward, Nat.cast_zero, zero_mul, zero_add, List.mem_append]
          rw [if_pos hiN]
          exact .inl (.inr hw)
        · by_cases c2 : m / 2 = 2 * N
          · refine fin (N - 1) (2 * N) (some 0) (some 0) (by omega) c2.symm fun w hw => ?_
            simp only [threadOf, gpuPreBackward, Nat.cast_zero, zero_mul, zero_add, List.mem_append]
            refine .inr ?_
            rw [if_pos (by omega)]
            rw [show 4 * (N : Int) = 2 * (2 * N) by ring]
            exact hw
          · obtain ⟨i, hi⟩ : ∃ i : Nat, (i : Int) = m / 2 - N - 1 := ⟨(m / 2 - N - 1).toNat, by omega⟩
            refine fin i (N + i + 1) (some 0) ((x (N - i - 2)).map fun v => -v) (by omega) (by omega) fun w hw => ?_
            simp only [threadOf, gpuPreBackward, Nat.cast_zero, zero_mul, zero_add, List.mem_append]
            refine .inr ?_
            rw [if_neg (by omega), if_pos (by omega)]
            exact hw
    | cos1 =>
      simp only [Trig.gain, Trig.least] at h1 hN
      by_cases c1 : m / 2 < N
      · refine fin (m / 2).toNat (m / 2) (x (m / 2)) (some 0) (by omega) rfl fun w hw => ?_
        simp only [threadOf, gpuPreBackward, Nat.cast_zero, zero_mul, zero_add, List.mem_append]
        rw [Int.toNat_of_nonneg (by omega), if_pos c1]
        exact .inl hw
      · obtain ⟨i, hi⟩ : ∃ i : Nat, (i : Int) = 2 * (N - 1) - m / 2 := ⟨(2 * (N - 1) - m / 2).toNat, by omega⟩
        have hiN : (i : Int) < N := by omega
        refine fin i (2 * (N - 1) - i) (x i) (some 0) (by omega) (by omega) fun w hw => ?_
        simp only [threadOf, gpuPreBackward, Nat.cast_zero, zero_mul, zero_add, List.mem_append]
        refine .inr ?_
        rw [if_pos hiN, show 4 * ((N : Int) - 1) - 2 * i = 2 * (2 * (N - 1) - i) by ring]
        exact hw

end

theorem least_pos (z : Trig) : 1 ≤ z.least := by cases z <;> decide

/-- CUDA and ROCm. -/
theorem processors_cuda (z : Trig) : Processors trigAll z where
  preForward := fun _ hN _ _ hx => gpu_preForward z hN hx
  postForward := fun _ hN _ _ hy => gpu_postForward z hN hy
  preBackward := fun _ hN _ _ hx => gpu_preBackward z hN hx
  postBackward := fun _ hN _ _ hy => gpu_postBackward z hN hy

/-- The threads below `N` do everything. -/
theorem mem_trigAll_iff (s : Stage) (z : Trig) {N : Nat} (hN : 1 ≤ N) (x : Int → Option ℝ) (w : Int × Option ℝ) :
    w ∈ trigAll s z N x ↔ ∃ i : Nat, i < N ∧ w ∈ threadOf s z N x i := by
  refine ⟨fun h => ?_, (mem_trigAll _ _ _ _ _).2⟩
  obtain ⟨i, hw⟩ := (mem_trigAll _ _ _ _ _).1 h
  by_cases hi : i < N
  · exact ⟨i, hi, hw⟩
  · have hi1 : ¬ ((i : Int) < N) := by omega
    have hi2 : ¬ ((i : Int) = 0) := by omega
    have hi3 : ¬ ((i : Int) = N - 1) := by omega
    refine ⟨0, by omega, ?_⟩
    cases s <;> cases z <;>
      simp only [threadOf, gpuPreForward, gpuPostForward, gpuPreBackward, gpuPostBackward, Nat.cast_zero, zero_mul, zero_add, hi1, hi2, hi3, if_false,
        and_false, List.nil_append, List.append_nil, List.mem_append, List.mem_singleton, List.not_mem_nil] at hw ⊢
    all_goals exact .inl (.inr hw)

theorem mem_oneTrigAll (s : Stage) {z : Trig} (hz : z ≠ .cos1) {N : Nat} (hN : 1 ≤ N) (x : Int → Option ℝ) (w : Int × Option ℝ) :
    w ∈ oneTrigAll s z N x ↔ w ∈ trigAll s z N x := by
  have hi : ∀ i : Nat, i < N → ((i : Int) < N) := fun i h => by exact_mod_cast h
  rw [mem_trigAll_iff s z hN]
  unfold oneTrigAll
  simp only [List.mem_flatMap, mem_loop]
  have key : ∀ i : Nat, i < N → (w ∈ oneItem s z N x i ↔ w ∈ threadOf s z N x i) := by
    intro i h
    cases z with
    | cos1 => exact absurd rfl hz
    | cos => cases s <;> simp [oneItem, threadOf, gpuPreForward, gpuPostForward, gpuPreBackward, gpuPostBackward, hi i h, or_assoc]
    | sin => cases s <;> simp [oneItem, threadOf, gpuPreForward, gpuPostForward, gpuPreBackward, gpuPostBackward, hi i h, or_assoc]
  constructor
  · rintro ⟨i, ⟨h0, h1⟩, hw⟩
    obtain ⟨i, rfl⟩ := Int.eq_ofNat_of_zero_le h0
    have h1' : i < N := by exact_mod_cast h1
    exact ⟨i, h1', (key i h1').1 hw⟩
  · rintro ⟨i, h1, hw⟩
    exact ⟨i, ⟨by omega, hi i h1⟩, (key i h1).2 hw⟩

theorem Writes.congr {γ : Type} {l l' : List (Int × Option γ)} {B lim : Int} {g : Int → γ} (h : Writes l B lim g) (e : ∀ w, w ∈ l' ↔ w ∈ l) :
    Writes l' B lim g :=
  ⟨fun w hw => h.val w ((e w).1 hw), fun m h0 h1 => by
    obtain ⟨w, hw, e'⟩ := h.cover m h0 h1
    exact ⟨w, (e w).2 hw, e'⟩⟩

/-- oneAPI. -/
theorem processors_one {z : Trig} (hz : z ≠ .cos1) : Processors oneTrigAll z where
  preForward := fun _ hN _ _ hx => (gpu_preForward z hN hx).congr (mem_oneTrigAll _ hz ((least_pos z).trans hN) _)
  postForward := fun _ hN _ _ hy => (gpu_postForward z hN hy).congr (mem_oneTrigAll _ hz ((least_pos z).trans hN) _)
  preBackward := fun _ hN _ _ hx => (gpu_preBackward z hN hx).congr (mem_oneTrigAll _ hz ((least_pos z).trans hN) _)
  postBackward := fun _ hN _ _ hy => (gpu_postBackward z hN hy).congr (mem_oneTrigAll _ hz ((least_pos z).trans hN) _)

/-! ## The executor -/

/-- A library of real-to-complex transforms that is right for `L` lines of length `g` in one array: `forward temp ctemp` reads `L * g` reals
from `temp` on and leaves the first `g / 2 + 1` entries of the transform of each line, as pairs of reals, from `ctemp` on; `backward` is the
other direction.  It may change everything else.  It can rely on the arrays not overlapping, on `work` complex numbers of workspace after
the second array and, when `aligned`, on both arrays starting at an address that is even. -/
structure LibGood (lib : TrigLib ℝ) (g L : Nat) (work : Int) (aligned : Bool) (addr : Int) : Prop where
  forward : ∀ (temp ctemp : Int) (ws : List ℝ) (x : Nat → Nat → ℝ), (aligned = true → (addr + temp) % 2 = 0 ∧ (addr + ctemp) % 2 = 0) → 0 ≤ temp →
    temp + g * L ≤ ctemp → ctemp + 2 * (((g / 2 + 1 : Nat) : Int) * L) + 2 * work ≤ ws.length →
    (∀ c < L, ∀ m < g, rd ws (temp + (c * g + m : Nat)) = some (x c m)) →
    (lib.forward temp ctemp ws).length = ws.length ∧ ∀ c < L, ∀ k < g / 2 + 1,
      rd (lib.forward temp ctemp ws) (ctemp + 2 * (c * (g / 2 + 1) + k : Nat)) = some (r2c ((List.range g).map (x c)) k).re ∧
      rd (lib.forward temp ctemp ws) (ctemp + 2 * (c * (g / 2 + 1) + k : Nat) + 1) = some (r2c ((List.range g).map (x c)) k).im
  backward : ∀ (ctemp temp : Int) (ws : List ℝ) (y : Nat → Nat → ℂ), (aligned = true → (addr + temp) % 2 = 0 ∧ (addr + ctemp) % 2 = 0) → 0 ≤ temp →
    temp + g * L ≤ ctemp → ctemp + 2 * (((g / 2 + 1 : Nat) : Int) * L) + 2 * work ≤ ws.length →
    (∀ c < L, ∀ k < g / 2 + 1, rd ws (ctemp + 2 * (c * (g / 2 + 1) + k : Nat)) = some (y c k).re ∧
      rd ws (ctemp + 2 * (c * (g / 2 + 1) + k : Nat) + 1) = some (y c k).im) →
    (lib.backward ctemp temp ws).length = ws.length ∧ ∀ c < L, ∀ m < g,
      rd (lib.backward ctemp temp ws) (temp + (c * g + m : Nat)) = some (c2r g ((List.range (g / 2 + 1)).map (y c)) m)

/-- The positions of the two arrays. -/
theorem TrigDims.places {t : TrigDims} {N L : Nat} (hn : t.n = N) (hl : t.lines = L) (hN : t.z.least ≤ N) {work : Int} (hw : 0 ≤ work) {len : Nat}
    (hlen : t.workspace work ≤ len) :
    (t.aligned = true → (t.addr + t.temp) % 2 = 0 ∧ (t.addr + t.ctemp) % 2 = 0) ∧ 0 ≤ t.temp ∧ t.temp + t.z.gain N * L ≤ t.ctemp ∧
      t.ctemp + 2 * (((t.z.gain N / 2 + 1 : Nat) : Int) * L) + 2 * work ≤ len ∧ t.ext = t.z.gain N ∧ t.ext / 2 + 1 = ((t.z.gain N / 2 + 1 : Nat) : Int) ∧
      0 < t.z.gain N ∧ 2 * (t.z.gain N / 2) = t.z.gain N := by
  have he : t.ext = t.z.gain N := by
    unfold TrigDims.ext
    rw [hn, gain_extended _ hN]
  have hg : ∃ q : Nat, t.z.gain N = 2 * q ∧ 0 < q := by
    cases h : t.z with
    | cos => rw [h] at hN; exact ⟨2 * N, by simp only [Trig.gain]; ring, by simp only [Trig.least] at hN; omega⟩
    | sin => rw [h] at hN; exact ⟨2 * N, by simp only [Trig.gain]; ring, by simp only [Trig.least] at hN; omega⟩
    | cos1 => rw [h] at hN; exact ⟨2 * (N - 1), by simp only [Trig.gain]; ring, by simp only [Trig.least] at hN; omega⟩
  obtain ⟨q, hq, hq0⟩ := hg
  have h2 : t.z.gain N / 2 = q := by omega
  have hb : t.boxSize = 2 * (q * L : Nat) := by
    unfold TrigDims.boxSize
    rw [he, hl, hq]; push_cast; ring
  have hb' : (t.z.gain N : Int) * L = 2 * (q * L : Nat) := by rw [hq]; push_cast; ring
  have hcs : t.complexSize = ((q + 1 : Nat) : Int) * L := by
    unfold TrigDims.complexSize
    rw [he, hl, hq]
    push_cast
    congr 1
    omega
  have hws : t.boxSize + 2 * t.complexSize + 2 * work + (if t.aligned then 2 else 1) ≤ len := hlen
  rw [hcs, hb] at hws
  have hc : t.ctemp = alignAt t.aligned t.addr (2 * (q * L : Nat) + 1) := by unfold TrigDims.ctemp; rw [hb]
  have ht : t.temp = alignAt t.aligned t.addr 0 := rfl
  rw [h2, hb', hc, ht, he]
  unfold alignAt
  generalize (((q * L : Nat) : Int)) = B at *
  generalize (((q + 1 : Nat) : Int) * L) = D at *
  refine ⟨?_, ?_, ?_, ?_, rfl, ?_, ?_, ?_⟩
  · intro h
    rw [if_pos h, if_pos h]
    constructor <;> split <;> omega
  · split <;> [split; skip] <;> omega
  · cases t.aligned <;> simp only [Bool.false_eq_true, if_false, if_true] <;> [skip; (split <;> split)] <;> omega
  · cases h : t.aligned <;> rw [h] at hws <;> simp only [Bool.false_eq_true, if_false, if_true] at hws ⊢ <;> [skip; split] <;> omega
  · omega
  · omega
  · omega

theorem gpuR2R_lines {all : Stage → Trig → Int → (Int → Option ℝ) → List (Int × Option ℝ)} {z : Trig} (hall : Processors all z) {sched : Schedule ℝ}
    (hsched : ∀ s c l, OrderOf (sched s c l) l) {lib : TrigLib ℝ} {t : TrigDims} {N L : Nat} (hz : t.z = z) (hn : t.n = N) (hl : t.lines = L)
    (hN : z.least ≤ N) (hL : 0 < L) {work : Int} (hw : 0 ≤ work) (hlib : LibGood lib (z.gain N) L work t.aligned t.addr) (fwd : Bool) {ws data : List ℝ}
    (hws : t.workspace work ≤ ws.length) {base : Int} (hb : 0 ≤ base) (hd : base + (L * N : Nat) ≤ data.length) {X : Nat → Nat → ℝ}
    (hX : ∀ c < L, ∀ k < N, rd data (base + (c * N + k : Nat)) = some (X c k)) :
    ∃ out, gpuR2R all sched lib fwd t base ws data = .ok out ∧ out.length = data.length ∧
      (∀ c < L, ∀ k < N, rd out (base + (c * N + k : Nat)) = some (trigOf z fwd N (X c) k)) ∧
      ∀ a, (a < base ∨ base + (L * N : Nat) ≤ a) → rd out a = rd data a := by
  subst hz
  obtain ⟨p1, p2, p3, p4, p5, p6, p7, p8⟩ := TrigDims.places hn hl hN hw hws
  have hbox : ¬ t.boxSize ≤ 0 := by
    unfold TrigDims.boxSize
    rw [p5, hl]
    have : 0 < ((t.z.gain N : Int) * L) := by positivity
    omega
  have hblock : ∀ {c B : Nat}, c < L → (c : Int) * B + B ≤ (L : Int) * B := by
    intro c B hc
    have : ((c + 1 : Nat) : Int) * B ≤ L * B := mul_le_mul_of_nonneg_right (by exact_mod_cast hc) (by positivity)
    push_cast at this
    linarith
  have hin : ∀ c : Nat, c < L → ∀ k : Nat, k < N → rd data (base + c * N + k) = some (X c k) := by
    intro c hc k hk
    rw [← hX c hc k hk]
    push_cast
    rw [add_assoc]
  have hLD : (0 : Int) < ((t.z.gain N / 2 + 1 : Nat) : Int) * L := by positivity
  cases fwd with
  | true =>
    simp only [gpuR2R, if_true, gpuForwardR2R, if_neg hbox]
    rw [hl, hn, p5]
    obtain ⟨ws1, a1, a2, a3, -⟩ := fold_blocks (A := t.temp) (B := (t.z.gain N : Int)) (hi := t.temp + L * t.z.gain N + 1) (len := ws.length)
      (step := fun m i => writeAll (shiftBy (t.temp + i * (t.z.gain N : Int)) (sched .preForward i (all .preForward t.z N fun k => rd data (base + i * N + k)))) m)
      (g := fun c m => signal t.z N (X c.toNat) m.toNat) (by positivity) L
      (by
        intro c hc0 hcL m hm
        obtain ⟨c, rfl⟩ := Int.eq_ofNat_of_zero_le hc0
        have hcL' : c < L := by exact_mod_cast hcL
        have hbl := hblock (B := t.z.gain N) hcL'
        have hw := hall.preForward N hN (fun k => rd data (base + (c : Int) * N + k)) (X c) (fun k hk => hin c hcL' k hk)
        obtain ⟨m', r1, r2, r3, r4⟩ := hw.run (by omega) (hsched .preForward c _) (C := t.temp + c * t.z.gain N) (t := m) (by positivity) (by
          rw [hm]; rw [mul_comm] at p3; omega)
        exact ⟨m', r1, by rw [r2, hm], r3, fun a ha => r4 a (by omega)⟩) ws rfl
    rw [a1]
    obtain ⟨b1, b2⟩ := hlib.forward t.temp t.ctemp ws1 (fun c m => signal t.z N (X c) m) p1 p2 p3 (by rw [a2]; exact p4) (by
      intro c hc m hm
      have := a3 c (by omega) (by exact_mod_cast hc) m (by omega) (by exact_mod_cast hm)
      rw [Int.toNat_natCast, Int.toNat_natCast] at this
      rw [← this]; push_cast; rw [add_assoc])
    obtain ⟨out, o1, o2, o3, o4⟩ := fold_blocks (A := base) (B := (N : Int)) (hi := base + L * N) (len := data.length)
      (step := fun m i => writeAll (shiftBy (base + i * N) (sched .postForward i (all .postForward t.z N fun k =>
        rd (lib.forward t.temp t.ctemp ws1) (t.ctemp + 2 * (i * ((t.z.gain N : Int) / 2 + 1)) + k)))) m)
      (g := fun c m => trigOf t.z true N (X c.toNat) m.toNat) (by positivity) L
      (by
        intro c hc0 hcL m hm
        obtain ⟨c, rfl⟩ := Int.eq_ofNat_of_zero_le hc0
        have hcL' : c < L := by exact_mod_cast hcL
        have hbl := hblock (B := N) hcL'
        have hy := b2 c hcL'
        have hw := hall.postForward N hN (fun k => rd (lib.forward t.temp t.ctemp ws1) (t.ctemp + 2 * ((c : Int) * ((t.z.gain N : Int) / 2 + 1)) + k))
          (trigOf t.z true N (X c)) (by
            intro k hk
            have h := hy k (by omega)
            rw [r2c_signal t.z hN _ hk] at h
            rw [← h.1, ← h.2]
            have e : t.ctemp + 2 * ((c : Int) * ((t.z.gain N : Int) / 2 + 1)) + 2 * k = t.ctemp + 2 * (c * (t.z.gain N / 2 + 1) + k : Nat) := by
              push_cast; ring
            constructor
            · rw [e]
            · rw [← add_assoc, e])
        obtain ⟨m', r1, r2, r3, r4⟩ := hw.run le_rfl (hsched .postForward c _) (C := base + c * N) (t := m) (by positivity) (by
          rw [hm]; push_cast at hd; omega)
        exact ⟨m', r1, by rw [r2, hm], r3, fun a ha => r4 a (by omega)⟩) data rfl
    refine ⟨out, o1, o2, ?_, fun a ha => o4 a (by push_cast at ha; exact ha)⟩
    intro c hc k hk
    have := o3 c (by omega) (by exact_mod_cast hc) k (by omega) (by exact_mod_cast hk)
    rw [Int.toNat_natCast, Int.toNat_natCast] at this
    rw [← this]; push_cast; rw [add_assoc]
  | false =>
    simp only [gpuR2R, Bool.false_eq_true, if_false, gpuBackwardR2R, if_neg hbox]
    rw [hl, hn, p5]
    have e2 : (t.z.gain N : Int) / 2 + 1 = ((t.z.gain N / 2 + 1 : Nat) : Int) := by rw [p5] at p6; exact p6
    rw [e2]
    have hG : ((2 * (t.z.gain N / 2 + 1) : Nat) : Int) = 2 * ((t.z.gain N / 2 + 1 : Nat) : Int) := by push_cast; ring
    obtain ⟨ws1, a1, a2, a3, -⟩ := fold_blocks (A := t.ctemp) (B := 2 * ((t.z.gain N / 2 + 1 : Nat) : Int))
      (hi := t.ctemp + L * (2 * ((t.z.gain N / 2 + 1 : Nat) : Int))) (len := ws.length)
      (step := fun m i => writeAll (shiftBy (t.ctemp + 2 * (i * ((t.z.gain N / 2 + 1 : Nat) : Int)))
        (sched .preBackward i (all .preBackward t.z N fun k => rd data (base + i * N + k)))) m)
      (g := fun c m => flat (spectrum t.z N (X c.toNat)) m) (by positivity) L
      (by
        intro c hc0 hcL m hm
        obtain ⟨c, rfl⟩ := Int.eq_ofNat_of_zero_le hc0
        have hcL' : c < L := by exact_mod_cast hcL
        have hbl := hblock (B := 2 * (t.z.gain N / 2 + 1)) hcL'
        rw [hG] at hbl
        have hw := hall.preBackward N hN (fun k => rd data (base + (c : Int) * N + k)) (X c) (fun k hk => hin c hcL' k hk)
        have e : t.ctemp + (c : Int) * (2 * ((t.z.gain N / 2 + 1 : Nat) : Int)) = t.ctemp + 2 * (c * ((t.z.gain N / 2 + 1 : Nat) : Int)) := by ring
        have e' : 2 * (((t.z.gain N / 2 + 1 : Nat) : Int) * L) = L * (2 * ((t.z.gain N / 2 + 1 : Nat) : Int)) := by ring
        have hc0' : 0 ≤ t.ctemp := by
          have : 0 ≤ (t.z.gain N : Int) * L := by positivity
          omega
        obtain ⟨m', r1, r2, r3, r4⟩ := hw.run le_rfl (hsched .preBackward c _) (C := t.ctemp + 2 * (c * ((t.z.gain N / 2 + 1 : Nat) : Int))) (t := m)
          (by positivity) (by rw [hm]; rw [e'] at p4; omega)
        refine ⟨m', r1, by rw [r2, hm], fun k h0 h1 => ?_, fun a ha => r4 a (by omega)⟩
        rw [e]
        exact r3 k h0 h1) ws rfl
    rw [a1]
    obtain ⟨b1, b2⟩ := hlib.backward t.ctemp t.temp ws1 (fun c k => spectrum t.z N (X c) k) p1 p2 p3 (by rw [a2]; exact p4) (by
      intro c hc k hk
      have h1 := a3 c (by omega) (by exact_mod_cast hc) (2 * k) (by omega) (by omega)
      have h2 := a3 c (by omega) (by exact_mod_cast hc) (2 * k + 1) (by omega) (by omega)
      rw [Int.toNat_natCast, flat_even] at h1
      rw [Int.toNat_natCast, flat_odd] at h2
      constructor
      · rw [← h1]; push_cast; ring_nf
      · rw [← h2]; push_cast; ring_nf)
    obtain ⟨out, o1, o2, o3, o4⟩ := fold_blocks (A := base) (B := (N : Int)) (hi := base + L * N) (len := data.length)
      (step := fun m i => writeAll (shiftBy (base + i * N) (sched .postBackward i (all .postBackward t.z N fun k =>
        rd (lib.backward t.ctemp t.temp ws1) (t.temp + i * (t.z.gain N : Int) + k)))) m)
      (g := fun c m => trigOf t.z false N (X c.toNat) m.toNat) (by positivity) L
      (by
        intro c hc0 hcL m hm
        obtain ⟨c, rfl⟩ := Int.eq_ofNat_of_zero_le hc0
        have hcL' : c < L := by exact_mod_cast hcL
        have hbl := hblock (B := N) hcL'
        have hy := b2 c hcL'
        have hw := hall.postBackward N hN (fun k => rd (lib.backward t.ctemp t.temp ws1) (t.temp + (c : Int) * (t.z.gain N : Int) + k))
          (c2r (t.z.gain N) ((List.range (t.z.gain N / 2 + 1)).map (spectrum t.z N (X c)))) (by
            intro k hk
            rw [← hy k hk]
            push_cast; rw [add_assoc])
        obtain ⟨m', r1, r2, r3, r4⟩ := hw.run le_rfl (hsched .postBackward c _) (C := base + c * N) (t := m) (by positivity) (by
          rw [hm]; push_cast at hd; omega)
        refine ⟨m', r1, by rw [r2, hm], fun k h0 h1 => ?_, fun a ha => r4 a (by omega)⟩
        rw [r3 k h0 h1, c2r_spectrum t.z hN]
        rfl) data rfl
    refine ⟨out, o1, o2, ?_, fun a ha => o4 a (by push_cast at ha; exact ha)⟩
    intro c hc k hk
    have := o3 c (by omega) (by exact_mod_cast hc) k (by omega) (by exact_mod_cast hk)
    rw [Int.toNat_natCast, Int.toNat_natCast] at this
    rw [← this]; push_cast; rw [add_assoc]

end Verif
