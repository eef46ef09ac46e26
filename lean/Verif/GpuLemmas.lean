import Verif.Gpu
import Verif.R2RLemmas
import Verif.Props.Pack

/-!
# Lemmas about the kernels of the GPU backends
-/

namespace Verif

theorem mem_loopBy {stride : Nat} (hs : 0 < stride) {n : Int} (m : Nat) : ∀ i q : Int, (n - i).toNat ≤ m →
    (q ∈ loopBy stride n i ↔ ∃ k : Nat, q = i + k * stride ∧ q < n) := by
  induction m with
  | zero =>
    intro i q hm
    unfold loopBy
    rw [if_neg (by omega)]
    simp only [List.not_mem_nil, false_iff, not_exists, not_and]
    intro k hk
    have : 0 ≤ (k : Int) * stride := by positivity
    omega
  | succ m ih =>
    intro i q hm
    unfold loopBy
    by_cases h : i < n
    · rw [if_pos ⟨hs, h⟩, List.mem_cons, ih (i + stride) q (by omega)]
      constructor
      · rintro (rfl | ⟨k, hk, hq⟩)
        · exact ⟨0, by simp, h⟩
        · exact ⟨k + 1, by rw [hk]; push_cast; ring, hq⟩
      · rintro ⟨k, hk, hq⟩
        cases k with
        | zero => left; simpa using hk
        | succ k => right; exact ⟨k, by rw [hk]; push_cast; ring, hq⟩
    · rw [if_neg (by omega)]
      simp only [List.not_mem_nil, false_iff, not_exists, not_and]
      intro k hk
      have : 0 ≤ (k : Int) * stride := by positivity
      omega

/-- The loops of the threads together cover the range. -/
theorem mem_loopBy_all {stride : Nat} (hs : 0 < stride) {n q : Int} :
    (∃ t : Nat, t < stride ∧ q ∈ loopBy stride n t) ↔ 0 ≤ q ∧ q < n := by
  constructor
  · rintro ⟨t, ht, h⟩
    obtain ⟨k, hk, hq⟩ := (mem_loopBy hs _ _ _ le_rfl).1 h
    have : 0 ≤ (k : Int) * stride := by positivity
    omega
  · rintro ⟨h0, h1⟩
    have hs' : (0 : Int) < stride := by exact_mod_cast hs
    have hm := Int.emod_nonneg q hs'.ne'
    have hl := Int.emod_lt_of_pos q hs'
    refine ⟨(q % stride).toNat, by omega, (mem_loopBy hs _ _ _ le_rfl).2 ⟨(q / stride).toNat, ?_, h1⟩⟩
    have hd := Int.ediv_nonneg h0 hs'.le
    rw [Int.toNat_of_nonneg hm, Int.toNat_of_nonneg hd]
    have := Int.emod_add_mul_ediv q stride
    rw [mul_comm] at this
    exact this.symm

theorem mem_allThreads {σ : Type} {blocks threads : Nat} {kernel : Nat → Nat → List σ} {x : σ} :
    x ∈ allThreads blocks threads kernel ↔ ∃ b < blocks, ∃ t < threads, x ∈ kernel b t := by
  simp only [allThreads, launch, List.mem_flatMap, List.mem_map, List.mem_range]
  constructor
  · rintro ⟨⟨b, t⟩, ⟨b', hb, t', ht, e⟩, hx⟩
    cases e
    exact ⟨b, hb, t, ht, hx⟩
  · rintro ⟨b, hb, t, ht, hx⟩
    exact ⟨(b, t), ⟨b, hb, t, ht, rfl⟩, hx⟩

/-- The threads of a grid cover the range. -/
theorem mem_grid {blocks threads : Nat} (hb : 0 < blocks) (ht : 0 < threads) {n q : Int} :
    (∃ b < blocks, ∃ t < threads, q ∈ loopBy (threads * blocks) n (b * threads + t)) ↔ 0 ≤ q ∧ q < n := by
  rw [← mem_loopBy_all (stride := threads * blocks) (Nat.mul_pos ht hb)]
  constructor
  · rintro ⟨b, hb', t, ht', h⟩
    refine ⟨b * threads + t, ?_, by push_cast; exact h⟩
    calc b * threads + t < b * threads + threads := by omega
      _ = (b + 1) * threads := by ring
      _ ≤ blocks * threads := Nat.mul_le_mul_right _ hb'
      _ = threads * blocks := Nat.mul_comm _ _
  · rintro ⟨u, hu, h⟩
    refine ⟨u / threads, Nat.div_lt_of_lt_mul hu, u % threads, Nat.mod_lt _ ht, ?_⟩
    rw [show (((u / threads : Nat) : Int) * threads + ((u % threads : Nat) : Int)) = (u : Int) by
      exact_mod_cast Nat.div_add_mod' u threads]
    exact h

theorem OrderOf.mem {σ : Type} {order all : List σ} (h : OrderOf order all) {x : σ} : x ∈ order ↔ x ∈ all := List.Perm.mem_iff h

/-! ## Packing -/

/-- The move of the component `r` of an entry of `tuple` reals. -/
def component (tuple : Nat) (m : Int × Int) (r : Nat) : Int × Int := (tuple * m.1 + r, tuple * m.2 + r)

section
variable {p : PackPlan} {tuple : Nat} {data buf : Int}

theorem packBlocks_pos (h1 : 0 < p.size 1) (h2 : 0 < p.size 2) : 0 < packBlocks p := by
  unfold packBlocks
  have : 0 < p.size 1 * p.size 2 := mul_pos h1 h2
  omega

/-- The lines of a sub-box, counted by one index. -/
theorem lines_iff (h1 : 0 < p.size 1) {q : Int} :
    (0 ≤ q ∧ q < p.size 1 * p.size 2) ↔ (0 ≤ q % p.size 1 ∧ q % p.size 1 < p.size 1) ∧ 0 ≤ q / p.size 1 ∧ q / p.size 1 < p.size 2 := by
  have hm := Int.emod_nonneg q h1.ne'
  have hl := Int.emod_lt_of_pos q h1
  constructor
  · rintro ⟨h0, hq⟩
    exact ⟨⟨hm, hl⟩, Int.ediv_nonneg h0 h1.le, Int.ediv_lt_of_lt_mul h1 (by rw [mul_comm]; exact hq)⟩
  · rintro ⟨-, h0, h2⟩
    have e := Int.emod_add_mul_ediv q (p.size 1)
    have a : 0 ≤ p.size 1 * (q / p.size 1) := mul_nonneg h1.le h0
    have b : p.size 1 * (q / p.size 1 + 1) ≤ p.size 1 * p.size 2 := mul_le_mul_of_nonneg_left (by omega) h1.le
    rw [mul_add, mul_one] at b
    omega

theorem line_index (h1 : 0 < p.size 1) {i j : Int} (hj : 0 ≤ j ∧ j < p.size 1) :
    (i * p.size 1 + j) % p.size 1 = j ∧ (i * p.size 1 + j) / p.size 1 = i := by
  constructor
  · rw [add_comm, Int.add_mul_emod_self_right, Int.emod_eq_of_lt hj.1 hj.2]
  · rw [add_comm, Int.add_mul_ediv_right _ _ h1.ne', Int.ediv_eq_zero_of_lt hj.1 hj.2, zero_add]

/-- The threads visit all the lines. -/
theorem mem_visit {kernel : Int → Nat → List (Int × Int)} (h1 : 0 < p.size 1) (h2 : 0 < p.size 2) {threads : Nat} {m : Int × Int} :
    (m ∈ allThreads (packBlocks p) threads fun b t => (loopBy (packBlocks p) (p.size 1 * p.size 2) b).flatMap fun q => kernel q t) ↔
      ∃ i j : Int, (0 ≤ i ∧ i < p.size 2) ∧ (0 ≤ j ∧ j < p.size 1) ∧ ∃ t < threads, m ∈ kernel (i * p.size 1 + j) t := by
  rw [mem_allThreads]
  simp only [List.mem_flatMap]
  constructor
  · rintro ⟨b, hb, t, ht, q, hq, hm⟩
    have := (lines_iff h1).1 ((mem_loopBy_all (packBlocks_pos h1 h2)).1 ⟨b, hb, hq⟩)
    refine ⟨q / p.size 1, q % p.size 1, this.2, this.1, t, ht, ?_⟩
    rw [show q / p.size 1 * p.size 1 + q % p.size 1 = q from Int.ediv_mul_add_emod q _]
    exact hm
  · rintro ⟨i, j, hi, hj, t, ht, hm⟩
    have e := line_index (i := i) h1 hj
    obtain ⟨b, hb, hq⟩ := (mem_loopBy_all (packBlocks_pos h1 h2)).2 ((lines_iff h1).2 (by rw [e.1, e.2]; exact ⟨hj, hi⟩))
    exact ⟨b, hb, t, ht, _, hq, hm⟩

theorem split_tuple (ht : 0 < tuple) {n v : Int} :
    (0 ≤ v ∧ v < n * tuple) ↔ ∃ k : Int, (0 ≤ k ∧ k < n) ∧ ∃ r < tuple, v = tuple * k + (r : Nat) := by
  have ht' : (0 : Int) < tuple := by exact_mod_cast ht
  constructor
  · rintro ⟨h0, h1⟩
    have hm := Int.emod_nonneg v ht'.ne'
    have hl := Int.emod_lt_of_pos v ht'
    refine ⟨v / tuple, ⟨Int.ediv_nonneg h0 ht'.le, Int.ediv_lt_of_lt_mul ht' h1⟩, (v % tuple).toNat, by omega, ?_⟩
    rw [Int.toNat_of_nonneg hm]
    exact (Int.mul_ediv_add_emod v tuple).symm
  · rintro ⟨k, hk, r, hr, rfl⟩
    have a : 0 ≤ (tuple : Int) * k := mul_nonneg ht'.le hk.1
    have b : (tuple : Int) * (k + 1) ≤ tuple * n := mul_le_mul_of_nonneg_left (by omega) ht'.le
    rw [mul_add, mul_one] at b
    rw [mul_comm n]
    omega

theorem mem_gpuDirect (ht : 0 < tuple) (h1 : 0 < p.size 1) (h2 : 0 < p.size 2) (m : Int × Int) :
    (m ∈ gpuDirectMoves tuple true p data buf ↔ ∃ u ∈ packMoves p data buf, ∃ r < tuple, m = component tuple u r) ∧
    (m ∈ gpuDirectMoves tuple false p data buf ↔ ∃ u ∈ unpackDirect p buf data, ∃ r < tuple, m = component tuple u r) := by
  have key : ∀ pack, m ∈ gpuDirectMoves tuple pack p data buf ↔ ∃ i j k : Int, (0 ≤ i ∧ i < p.size 2) ∧ (0 ≤ j ∧ j < p.size 1) ∧
      (0 ≤ k ∧ k < p.size 0) ∧ ∃ r < tuple, m = component tuple (if pack then (buf + ((i * p.size 1 + j) * p.size 0 + k),
        data + (i * p.planeStride + j * p.lineStride + k)) else (data + (i * p.planeStride + j * p.lineStride + k),
        buf + ((i * p.size 1 + j) * p.size 0 + k))) r := by
    intro pack
    unfold gpuDirectMoves directThread
    dsimp only
    rw [mem_visit (p := p) h1 h2 (kernel := fun q t =>
      (loopBy maxThreads (p.size 0 * tuple) t).map fun i =>
        if pack then (tuple * buf + q * p.size 0 * tuple + i, tuple * data + tuple * (q % p.size 1 * p.lineStride + q / p.size 1 * p.planeStride) + i)
        else (tuple * data + tuple * (q % p.size 1 * p.lineStride + q / p.size 1 * p.planeStride) + i, tuple * buf + q * p.size 0 * tuple + i))]
    simp only [List.mem_map]
    have val : ∀ i j k : Int, ∀ r : Nat, (0 ≤ j ∧ j < p.size 1) → (if pack = true then
          (tuple * buf + (i * p.size 1 + j) * p.size 0 * tuple + (tuple * k + r),
            tuple * data + tuple * ((i * p.size 1 + j) % p.size 1 * p.lineStride + (i * p.size 1 + j) / p.size 1 * p.planeStride) + (tuple * k + r))
        else (tuple * data + tuple * ((i * p.size 1 + j) % p.size 1 * p.lineStride + (i * p.size 1 + j) / p.size 1 * p.planeStride) + (tuple * k + r),
          tuple * buf + (i * p.size 1 + j) * p.size 0 * tuple + (tuple * k + r))) =
        component tuple (if pack then (buf + ((i * p.size 1 + j) * p.size 0 + k),
        data + (i * p.planeStride + j * p.lineStride + k)) else (data + (i * p.planeStride + j * p.lineStride + k),
        buf + ((i * p.size 1 + j) * p.size 0 + k))) r := by
      intro i j k r hj
      rw [(line_index h1 hj).1, (line_index h1 hj).2]
      unfold component
      cases pack <;> simp only [if_true, Bool.false_eq_true, if_false, Prod.mk.injEq] <;> constructor <;> ring
    constructor
    · rintro ⟨i, j, hi, hj, t, ht', v, hv, rfl⟩
      obtain ⟨k, hk, r, hr, rfl⟩ := (split_tuple ht).1 ((mem_loopBy_all (by decide)).1 ⟨t, ht', hv⟩)
      exact ⟨i, j, k, hi, hj, hk, r, hr, val i j k r hj⟩
    · rintro ⟨i, j, k, hi, hj, hk, r, hr, rfl⟩
      obtain ⟨t, ht', hv⟩ := (mem_loopBy_all (stride := maxThreads) (by decide)).2 ((split_tuple ht).2 ⟨k, hk, r, hr, rfl⟩)
      exact ⟨i, j, hi, hj, t, ht', _, hv, val i j k r hj⟩
  constructor
  · rw [key]
    simp only [mem_packMoves, if_true]
    constructor
    · rintro ⟨i, j, k, hi, hj, hk, r, hr, rfl⟩; exact ⟨_, ⟨i, j, k, hi, hj, hk, rfl⟩, r, hr, rfl⟩
    · rintro ⟨u, ⟨i, j, k, hi, hj, hk, rfl⟩, r, hr, rfl⟩; exact ⟨i, j, k, hi, hj, hk, r, hr, rfl⟩
  · rw [key]
    simp only [mem_unpackDirect, Bool.false_eq_true, if_false]
    constructor
    · rintro ⟨i, j, k, hi, hj, hk, r, hr, rfl⟩; exact ⟨_, ⟨i, j, k, hi, hj, hk, rfl⟩, r, hr, rfl⟩
    · rintro ⟨u, ⟨i, j, k, hi, hj, hk, rfl⟩, r, hr, rfl⟩; exact ⟨i, j, k, hi, hj, hk, r, hr, rfl⟩

/-- The map of a plan is a permutation. -/
def PackPlan.HasMap (p : PackPlan) : Prop :=
  p.map = ⟨0, 1, 2⟩ ∨ p.map = ⟨0, 2, 1⟩ ∨ p.map = ⟨1, 0, 2⟩ ∨ p.map = ⟨1, 2, 0⟩ ∨ p.map = ⟨2, 0, 1⟩ ∨ p.map = ⟨2, 1, 0⟩

theorem hasMap_transposePlan {t ov : Box} {o : A3 (Fin 3)} (ho : IsOrder o) (ht : IsOrder t.order) : (transposePlan t ov o).HasMap := by
  obtain ⟨tl, th, tord⟩ := t
  dsimp only at ht
  unfold PackPlan.HasMap
  rcases ho.cases with rfl | rfl | rfl | rfl | rfl | rfl <;> rcases ht.cases with rfl | rfl | rfl | rfl | rfl | rfl <;>
    simp [transposePlan, orderMap, dims, A3.of]

theorem gpuSource_eq (hm : p.HasMap) (i j k : Int) : gpuSource p i j k = some (bufIndex p k j i) := by
  rcases hm with h | h | h | h | h | h <;> simp [gpuSource, bufIndex, h]

theorem mem_gpuTranspose (ht : tuple = 1 ∨ tuple = 2) (hm : p.HasMap) {stride : Nat} (hs : 0 < stride) (h1 : 0 < p.size 1) (h2 : 0 < p.size 2)
    (m : Int × Int) :
    m ∈ gpuTransposeMoves tuple p buf data ↔ ∃ u ∈ unpackTranspose stride p buf data, ∃ r < tuple, m = component tuple u r := by
  unfold gpuTransposeMoves transposeThread
  dsimp only
  simp only [gpuSource_eq hm]
  rw [mem_visit (p := p) h1 h2 (kernel := fun q t => (loopBy maxThreads (p.size 0) t).flatMap fun i =>
    (tuple * data + tuple * (q / p.size 1 * p.planeStride + q % p.size 1 * p.lineStride + i),
      tuple * buf + tuple * bufIndex p (q / p.size 1) (q % p.size 1) i) ::
      if 1 < tuple then [(tuple * data + (tuple * (q / p.size 1 * p.planeStride + q % p.size 1 * p.lineStride + i) + 1),
        tuple * buf + (tuple * bufIndex p (q / p.size 1) (q % p.size 1) i + 1))] else [])]
  simp only [mem_unpackTranspose hs, List.mem_flatMap]
  have val : ∀ d b : Int, (m ∈ (tuple * data + tuple * d, tuple * buf + tuple * b) ::
      if 1 < tuple then [((tuple : Int) * data + (tuple * d + 1), (tuple : Int) * buf + (tuple * b + 1))] else []) ↔
      ∃ r < tuple, m = component tuple (data + d, buf + b) r := by
    intro d b
    unfold component
    rcases ht with rfl | rfl
    · simp only [lt_irrefl, if_false, List.mem_singleton]
      constructor
      · rintro rfl; exact ⟨0, by omega, by push_cast; simp⟩
      · rintro ⟨r, hr, rfl⟩
        obtain rfl : r = 0 := by omega
        push_cast; simp
    · simp only [Nat.one_lt_ofNat, if_true, List.mem_cons, List.not_mem_nil, or_false]
      constructor
      · rintro (rfl | rfl)
        · exact ⟨0, by omega, by push_cast; simp only [Prod.mk.injEq]; constructor <;> ring⟩
        · exact ⟨1, by omega, by push_cast; simp only [Prod.mk.injEq]; constructor <;> ring⟩
      · rintro ⟨r, hr, rfl⟩
        obtain rfl | rfl : r = 0 ∨ r = 1 := by omega
        · left; push_cast; simp only [Prod.mk.injEq]; constructor <;> ring
        · right; push_cast; simp only [Prod.mk.injEq]; constructor <;> ring
  constructor
  · rintro ⟨i, j, hi, hj, t, ht', k, hk, hm'⟩
    rw [(line_index h1 hj).1, (line_index h1 hj).2, val] at hm'
    obtain ⟨r, hr, e⟩ := hm'
    exact ⟨_, ⟨i, j, k, hi, hj, (mem_loopBy_all (by decide)).1 ⟨t, ht', hk⟩, rfl⟩, r, hr, e⟩
  · rintro ⟨u, ⟨i, j, k, hi, hj, hk, rfl⟩, r, hr, e⟩
    obtain ⟨t, ht', hk'⟩ := (mem_loopBy_all (stride := maxThreads) (by decide)).2 hk
    refine ⟨i, j, hi, hj, t, ht', k, hk', ?_⟩
    rw [(line_index h1 hj).1, (line_index h1 hj).2, val]
    exact ⟨r, hr, e⟩

theorem mem_oneDirect (m : Int × Int) :
    (m ∈ oneDirectMoves true p data buf ↔ m ∈ packMoves p data buf) ∧ (m ∈ oneDirectMoves false p data buf ↔ m ∈ unpackDirect p buf data) := by
  have e : ∀ i j k : Int, i * p.size 1 * p.size 0 + j * p.size 0 + k = (i * p.size 1 + j) * p.size 0 + k := fun i j k => by ring
  rw [mem_packMoves, mem_unpackDirect]
  simp only [oneDirectMoves, items3, List.mem_map, List.mem_flatMap, mem_loop, e]
  constructor <;> constructor
  · rintro ⟨x, ⟨i, hi, j, hj, k, hk, rfl⟩, rfl⟩; exact ⟨i, j, k, hi, hj, hk, rfl⟩
  · rintro ⟨i, j, k, hi, hj, hk, rfl⟩; exact ⟨_, ⟨i, hi, j, hj, k, hk, rfl⟩, rfl⟩
  · rintro ⟨x, ⟨i, hi, j, hj, k, hk, rfl⟩, rfl⟩; exact ⟨i, j, k, hi, hj, hk, rfl⟩
  · rintro ⟨i, j, k, hi, hj, hk, rfl⟩; exact ⟨_, ⟨i, hi, j, hj, k, hk, rfl⟩, rfl⟩

theorem oneTranspose_ok (hm : p.HasMap) {stride : Nat} (hs : 0 < stride) :
    ∃ l, oneTransposeMoves p buf data = .ok l ∧ ∀ m, m ∈ l ↔ m ∈ unpackTranspose stride p buf data := by
  have key : oneTransposeMoves p buf data = .ok ((items3 p).map fun (i, j, k) =>
      (data + (i * p.planeStride + j * p.lineStride + k), buf + bufIndex p i j k)) := by
    rcases hm with h | h | h | h | h | h <;> simp [oneTransposeMoves, bufIndex, h]
  refine ⟨_, key, fun m => ?_⟩
  rw [mem_unpackTranspose hs]
  simp only [items3, List.mem_map, List.mem_flatMap, mem_loop]
  constructor
  · rintro ⟨x, ⟨i, hi, j, hj, k, hk, rfl⟩, rfl⟩; exact ⟨i, j, k, hi, hj, hk, rfl⟩
  · rintro ⟨i, j, k, hi, hj, hk, rfl⟩; exact ⟨_, ⟨i, hi, j, hj, k, hk, rfl⟩, rfl⟩

theorem mem_component_one (u m : Int × Int) : (∃ r < 1, m = component 1 u r) ↔ m = u := by
  unfold component
  constructor
  · rintro ⟨r, hr, rfl⟩
    obtain rfl : r = 0 := by omega
    simp
  · rintro rfl; exact ⟨0, by omega, by simp⟩

/-- Copying the components of all entries. -/
theorem copy_components {γ : Type} (ht : 0 < tuple) {l moves : List (Int × Int)} (hl : ∀ m, m ∈ l ↔ ∃ u ∈ moves, ∃ r < tuple, m = component tuple u r)
    {ns nd : Int} {src dst : List γ} (hb : ∀ u ∈ moves, (0 ≤ u.2 ∧ u.2 < ns) ∧ 0 ≤ u.1 ∧ u.1 < nd)
    (hc : ∀ u ∈ moves, ∀ v ∈ moves, u.1 = v.1 → u.2 = v.2) (hs : tuple * ns ≤ src.length) (hd : tuple * nd ≤ dst.length) :
    ∃ out, copyMoves l src dst = .ok out ∧ out.length = dst.length ∧
      (∀ u ∈ moves, ∀ r < tuple, rd out (tuple * u.1 + r) = rd src (tuple * u.2 + r)) ∧
      ∀ x, (∀ u ∈ moves, ∀ r < tuple, (tuple : Int) * u.1 + r ≠ x) → rd out x = rd dst x := by
  have ht' : (0 : Int) < tuple := by exact_mod_cast ht
  have inb : ∀ {n a : Int} {r : Nat}, 0 ≤ a ∧ a < n → r < tuple → 0 ≤ (tuple : Int) * a + r ∧ (tuple : Int) * a + r < tuple * n := by
    intro n a r ha hr
    have h1 : 0 ≤ (tuple : Int) * a := mul_nonneg ht'.le ha.1
    have h2 : (tuple : Int) * (a + 1) ≤ tuple * n := mul_le_mul_of_nonneg_left (by omega) ht'.le
    rw [mul_add, mul_one] at h2
    omega
  obtain ⟨out, o1, o2, o3, o4⟩ := copyMoves_ok (moves := l) (src := src) (dst := dst)
    (by
      intro m hm
      obtain ⟨u, hu, r, hr, rfl⟩ := (hl m).1 hm
      have a := inb (hb u hu).1 hr
      have b := inb (hb u hu).2 hr
      exact ⟨⟨a.1, lt_of_lt_of_le a.2 hs⟩, b.1, lt_of_lt_of_le b.2 hd⟩)
    (by
      intro m hm m' hm' h
      obtain ⟨u, hu, r, hr, rfl⟩ := (hl m).1 hm
      obtain ⟨v, hv, r', hr', rfl⟩ := (hl m').1 hm'
      simp only [component] at h ⊢
      have e : u.1 = v.1 := by
        have h1 := congrArg (· / (tuple : Int)) h
        rwa [Int.mul_add_ediv_left _ _ ht'.ne', Int.mul_add_ediv_left _ _ ht'.ne', Int.ediv_eq_zero_of_lt (by omega) (by omega),
          Int.ediv_eq_zero_of_lt (by omega) (by omega), add_zero, add_zero] at h1
      rw [hc u hu v hv e]
      rw [e] at h
      omega)
  refine ⟨out, o1, o2, fun u hu r hr => o3 _ ((hl _).2 ⟨u, hu, r, hr, rfl⟩), fun x hx => o4 x fun m hm => ?_⟩
  obtain ⟨u, hu, r, hr, rfl⟩ := (hl m).1 hm
  exact hx u hu r hr

/-! ## The index computations -/

/-- The bounds of the index computations: `C` bounds the positions in the array, and the number of entries. -/
structure PackPlan.Below (p : PackPlan) (C : Int) : Prop where
  pos : ∀ d, 0 < p.size.get d
  line : 0 ≤ p.lineStride
  plane : 0 ≤ p.planeStride
  count : p.size 0 * (p.size 1 * p.size 2) ≤ C
  place : ∀ i j k : Int, (0 ≤ i ∧ i < p.size 2) → (0 ≤ j ∧ j < p.size 1) → (0 ≤ k ∧ k < p.size 0) →
    i * p.planeStride + j * p.lineStride + k < C

theorem visited (h1 : 0 < p.size 1) (h2 : 0 < p.size 2) {b : Nat} (hb : b < packBlocks p) {q : Int}
    (hq : q ∈ loopBy (packBlocks p) (p.size 1 * p.size 2) b) :
    (0 ≤ q % p.size 1 ∧ q % p.size 1 < p.size 1) ∧ (0 ≤ q / p.size 1 ∧ q / p.size 1 < p.size 2) ∧ 0 ≤ q ∧ q < p.size 1 * p.size 2 := by
  have h := (mem_loopBy_all (packBlocks_pos h1 h2)).1 ⟨b, hb, hq⟩
  have h' := (lines_iff h1).1 h
  exact ⟨h'.1, h'.2, h⟩

theorem packBlocks_le : packBlocks p ≤ 65536 := by
  unfold packBlocks; omega

theorem directValues_lt {C limit : Int} (ht : 0 < tuple) (hp : p.Below C) (hlim : tuple * C + 65536 ≤ limit) :
    ∀ v ∈ allThreads (packBlocks p) maxThreads (directValues tuple p (packBlocks p) maxThreads), v < limit := by
  have h0 : 0 < p.size 0 := hp.pos 0
  have h1 : 0 < p.size 1 := hp.pos 1
  have h2 : 0 < p.size 2 := hp.pos 2
  have ht' : (1 : Int) ≤ tuple := by exact_mod_cast ht
  have h12 : 0 < p.size 1 * p.size 2 := mul_pos h1 h2
  have hCp : p.size 1 * p.size 2 ≤ C := le_trans (by nlinarith) hp.count
  have hC0 : p.size 0 ≤ C := le_trans (by nlinarith) hp.count
  have hCt : C ≤ tuple * C := by nlinarith
  intro v hv
  obtain ⟨b, hb, t, htt, hv⟩ := mem_allThreads.1 hv
  unfold directValues at hv
  rcases List.mem_cons.1 hv with rfl | hv
  · omega
  · obtain ⟨q, hq, hv⟩ := List.mem_flatMap.1 hv
    obtain ⟨hj, hi, hqq⟩ := visited h1 h2 hb hq
    have hpl := hp.place _ _ 0 hi hj ⟨le_rfl, h0⟩
    have hbl := packBlocks_le (p := p)
    dsimp only at hv
    have a1 : 0 ≤ q % p.size 1 * p.lineStride := mul_nonneg hj.1 hp.line
    have a2 : 0 ≤ q / p.size 1 * p.planeStride := mul_nonneg hi.1 hp.plane
    have a3 : tuple * (q % p.size 1 * p.lineStride + q / p.size 1 * p.planeStride) ≤ tuple * C := by
      apply mul_le_mul_of_nonneg_left _ (by omega); omega
    have a4 : q * p.size 0 ≤ C := le_trans (by nlinarith) hp.count
    have a5 : q * p.size 0 * tuple ≤ tuple * C := by rw [mul_comm]; exact mul_le_mul_of_nonneg_left a4 (by omega)
    have a6 : p.size 0 * tuple ≤ tuple * C := by rw [mul_comm]; exact mul_le_mul_of_nonneg_left hC0 (by omega)
    rcases List.mem_append.1 hv with hv | hv
    · simp only [List.mem_cons, List.not_mem_nil, or_false] at hv
      rcases hv with rfl | rfl | rfl | rfl | rfl | rfl | rfl | rfl <;> omega
    · obtain ⟨i, hi', rfl⟩ := List.mem_map.1 hv
      have := (mem_loopBy_all (by decide)).1 ⟨t, htt, hi'⟩
      have hmt : (maxThreads : Int) = 1024 := rfl
      omega

theorem transposeValues_lt {C limit : Int} (ht : 0 < tuple) (hp : p.Below C) (hm : p.HasMap) (hlim : tuple * C + 65536 ≤ limit)
    (hbuf : ∀ i j k : Int, (0 ≤ i ∧ i < p.size 2) → (0 ≤ j ∧ j < p.size 1) → (0 ≤ k ∧ k < p.size 0) → bufIndex p i j k < C) :
    ∀ v ∈ allThreads (packBlocks p) maxThreads (transposeValues tuple p (packBlocks p) maxThreads), v < limit := by
  have h0 : 0 < p.size 0 := hp.pos 0
  have h1 : 0 < p.size 1 := hp.pos 1
  have h2 : 0 < p.size 2 := hp.pos 2
  have ht' : (1 : Int) ≤ tuple := by exact_mod_cast ht
  have h12 : 0 < p.size 1 * p.size 2 := mul_pos h1 h2
  have hCp : p.size 1 * p.size 2 ≤ C := le_trans (by nlinarith) hp.count
  have hC0 : p.size 0 ≤ C := le_trans (by nlinarith) hp.count
  have hCt : C ≤ tuple * C := by nlinarith
  have key : ∀ a : Int, a < C → tuple * a + (tuple - 1) < limit := by
    intro a ha
    have : (tuple : Int) * (a + 1) ≤ tuple * C := mul_le_mul_of_nonneg_left (by omega) (by omega)
    rw [mul_add, mul_one] at this
    omega
  intro v hv
  obtain ⟨b, hb, t, htt, hv⟩ := mem_allThreads.1 hv
  unfold transposeValues at hv
  rcases List.mem_cons.1 hv with rfl | hv
  · omega
  · obtain ⟨q, hq, hv⟩ := List.mem_flatMap.1 hv
    obtain ⟨hj, hi, hqq⟩ := visited h1 h2 hb hq
    have hbl := packBlocks_le (p := p)
    dsimp only at hv
    rcases List.mem_cons.1 hv with rfl | hv
    · omega
    · obtain ⟨i, hi', hv⟩ := List.mem_flatMap.1 hv
      have hr := (mem_loopBy_all (by decide)).1 ⟨t, htt, hi'⟩
      have hmt : (maxThreads : Int) = 1024 := rfl
      rw [gpuSource_eq hm] at hv
      simp only [Option.map_some, Option.toList_some, List.mem_append, List.mem_cons, List.not_mem_nil, or_false] at hv
      rcases hv with (rfl | rfl) | rfl
      · exact key _ (hp.place _ _ _ hi hj hr)
      · omega
      · exact key _ (hbuf _ _ _ hi hj hr)

theorem runCopy_ok {γ : Type} {limit : Int} {values : List Int} (h : ∀ v ∈ values, v < limit) (order : List (Int × Int)) (src dst : List γ) :
    runCopy limit values order src dst = copyMoves order src dst := by
  unfold runCopy
  rw [if_pos]
  rw [List.all_eq_true]
  exact fun v hv => decide_eq_true (h v hv)

end

/-- The plan of a sub-box stays inside of the array of the box. -/
theorem below_sub {s a : Box} (hs : IsOrder s.order) (ha : a.order = s.order) (hsub : ∀ q : A3 Int, q ∈ a → q ∈ s) (he : a.empty = false)
    {p : PackPlan} (hsz : p.size = ⟨a.osize 0, a.osize 1, a.osize 2⟩) (hl : p.lineStride = s.osize 0) (hpl : p.planeStride = s.osize 1 * s.osize 0) :
    p.Below s.points.card := by
  have hao : IsOrder a.order := by rw [ha]; exact hs
  have hp := osize_pos he
  have hcard := Box.count_eq_card s
  have hin : ∀ i j k : Int, (0 ≤ i ∧ i < a.osize 2) → (0 ≤ j ∧ j < a.osize 1) → (0 ≤ k ∧ k < a.osize 0) → a.at i j k ∈ a := fun i j k hi hj hk =>
    (Box.mem_at hao).2 ⟨i, j, k, hi, hj, hk, rfl⟩
  have h000 := hin 0 0 0 ⟨le_rfl, hp 2⟩ ⟨le_rfl, hp 1⟩ ⟨le_rfl, hp 0⟩
  have hse : s.empty = false := Box.empty_false_of_mem (hsub _ h000)
  have hps := osize_pos hse
  have hbase := (Box.offset_range hs (hsub _ h000)).1
  rw [Box.offset_at (b := s) hao ha.symm] at hbase
  refine ⟨?_, by rw [hl]; exact (hps 0).le, by rw [hpl]; exact (mul_pos (hps 1) (hps 0)).le, ?_, ?_⟩
  · intro d
    rw [hsz]
    match d with
    | 0 => exact hp 0
    | 1 => exact hp 1
    | 2 => exact hp 2
  · rw [hsz, ← hcard]
    simp only [A3.get_zero, A3.get_one, A3.get_two]
    have h1 : a.points.card ≤ s.points.card := Finset.card_le_card fun q hq => Box.mem_points.2 (hsub q (Box.mem_points.1 hq))
    have h2 := Box.count_eq_card a
    rw [Box.count_osize hao he] at h2
    rw [hcard]
    calc a.osize 0 * (a.osize 1 * a.osize 2) = a.osize 0 * a.osize 1 * a.osize 2 := by ring
      _ = (a.points.card : Int) := by rw [← h2]; ring
      _ ≤ s.points.card := by exact_mod_cast h1
  · intro i j k hi hj hk
    rw [hsz] at hi hj hk
    simp only [A3.get_zero, A3.get_one, A3.get_two] at hi hj hk
    have := (Box.offset_range hs (hsub _ (hin i j k hi hj hk))).2
    rw [Box.offset_at (b := s) hao ha.symm] at this
    rw [hl, hpl, ← hcard]
    simp only [zero_mul, add_zero] at hbase
    nlinarith

/-! ## Conversion and scaling -/

theorem nodup_loopBy {stride : Nat} (hs : 0 < stride) {n : Int} (m : Nat) : ∀ i : Int, (n - i).toNat ≤ m → (loopBy stride n i).Nodup := by
  induction m with
  | zero =>
    intro i hm
    unfold loopBy
    rw [if_neg (by omega)]
    exact List.nodup_nil
  | succ m ih =>
    intro i hm
    unfold loopBy
    by_cases h : i < n
    · rw [if_pos ⟨hs, h⟩, List.nodup_cons]
      refine ⟨fun hi => ?_, ih _ (by omega)⟩
      obtain ⟨k, hk, -⟩ := (mem_loopBy hs _ _ _ le_rfl).1 hi
      have : 0 ≤ (k : Int) * stride := by positivity
      omega
    · rw [if_neg (by omega)]
      exact List.nodup_nil

theorem nodup_launch (blocks threads : Nat) : (launch blocks threads).Nodup :=
  List.Nodup.product List.nodup_range List.nodup_range

/-- No two threads of a grid visit the same index. -/
theorem nodup_grid {blocks threads : Nat} (hb : 0 < blocks) (ht : 0 < threads) (n : Int) :
    (allThreads blocks threads fun b t => loopBy (threads * blocks) n (b * threads + t)).Nodup := by
  have hs : 0 < threads * blocks := Nat.mul_pos ht hb
  unfold allThreads
  rw [List.nodup_flatMap]
  refine ⟨fun g _ => nodup_loopBy hs _ _ le_rfl, ?_⟩
  refine List.Pairwise.imp_of_mem ?_ (nodup_launch blocks threads)
  rintro ⟨b, t⟩ ⟨b', t'⟩ hg hg' hne q hq hq'
  apply hne
  simp only [launch, List.mem_flatMap, List.mem_map, List.mem_range, Prod.mk.injEq] at hg hg'
  obtain ⟨_, hb1, _, ht1, rfl, rfl⟩ := hg
  obtain ⟨_, hb2, _, ht2, rfl, rfl⟩ := hg'
  rename_i b t b' t'
  obtain ⟨k, hk, -⟩ := (mem_loopBy hs _ _ _ le_rfl).1 hq
  obtain ⟨k', hk', -⟩ := (mem_loopBy hs _ _ _ le_rfl).1 hq'
  have lt : ∀ b t : Nat, b < blocks → t < threads → b * threads + t < threads * blocks := by
    intro b t hb' ht'
    calc b * threads + t < b * threads + threads := by omega
      _ = (b + 1) * threads := by ring
      _ ≤ blocks * threads := Nat.mul_le_mul_right _ hb'
      _ = threads * blocks := Nat.mul_comm _ _
  have e : b * threads + t + k * (threads * blocks) = b' * threads + t' + k' * (threads * blocks) := by
    have := hk.symm.trans hk'
    dsimp only at this
    exact_mod_cast this
  have e1 : b * threads + t = b' * threads + t' := by
    have := congrArg (· % (threads * blocks)) e
    simpa [Nat.mod_eq_of_lt (lt _ _ hb1 ht1), Nat.mod_eq_of_lt (lt _ _ hb2 ht2)] using this
  have e2 : t = t' := by
    have := congrArg (· % threads) e1
    simpa [Nat.mod_eq_of_lt ht1, Nat.mod_eq_of_lt ht2] using this
  subst e2
  have e3 : b = b' := Nat.eq_of_mul_eq_mul_right ht (by omega)
  rw [e3]

/-- The launches that fail: the number of entries, as an `int`, is zero or below -1023. -/
theorem gridBlocks_nonpos {n : Int} : gridBlocks n ≤ 0 ↔ n % 2 ^ 32 = 0 ∨ (2 ^ 31 ≤ n % 2 ^ 32 ∧ n % 2 ^ 32 ≤ 2 ^ 32 - 1024) := by
  unfold gridBlocks toInt32 maxThreads
  dsimp only
  have hm := Int.emod_nonneg n (b := 2 ^ 32) (by norm_num)
  have hl := Int.emod_lt_of_pos n (b := 2 ^ 32) (by norm_num)
  have hb : Int.bmod n (2 ^ 32) = if n % 2 ^ 32 < 2 ^ 31 then n % 2 ^ 32 else n % 2 ^ 32 - 2 ^ 32 := by
    rw [Int.bmod_def]; norm_num
  rw [hb]
  generalize n % 2 ^ 32 = r at *
  norm_num at *
  split
  · rw [Int.tdiv_eq_ediv_of_nonneg hm, Int.tmod_eq_emod_of_nonneg hm]
    split <;> omega
  · obtain ⟨u, hu⟩ : ∃ u : Int, u = 4294967296 - r := ⟨_, rfl⟩
    have e : r - 4294967296 = -u := by omega
    rw [e, Int.neg_tdiv, Int.neg_tmod, Int.tdiv_eq_ediv_of_nonneg (by omega), Int.tmod_eq_emod_of_nonneg (by omega)]
    split <;> omega

theorem gridBlocks_le (n : Int) : gridBlocks n ≤ 65536 := min_le_right _ _

/-- The statements `data[i] *= f` for different `i`. -/
theorem scaleAt_ok {β : Type} [Mul β] (f : β) : ∀ (l : List Int) (mem : List β), l.Nodup → (∀ i ∈ l, 0 ≤ i ∧ i < mem.length) →
    ∃ out, scaleAt f l mem = .ok out ∧ out.length = mem.length ∧ (∀ i ∈ l, rd out i = (rd mem i).map (· * f)) ∧
      ∀ i, i ∉ l → rd out i = rd mem i
  | [], mem, _, _ => ⟨mem, rfl, rfl, by simp, fun _ _ => rfl⟩
  | i :: t, mem, hn, hb => by
    obtain ⟨hi, hn⟩ := List.nodup_cons.1 hn
    have hb0 := hb i (by simp)
    obtain ⟨x, hx⟩ := rd_some_iff.2 hb0
    obtain ⟨out, h1, h2, h3, h4⟩ := scaleAt_ok f t (mem.set i.toNat (x * f)) hn fun j hj => by
      rw [List.length_set]; exact hb j (by simp [hj])
    refine ⟨out, ?_, by rw [h2, List.length_set], ?_, ?_⟩
    · simp only [scaleAt, hx, wr, if_pos hb0, h1]
    · intro j hj
      rcases List.mem_cons.1 hj with rfl | hj'
      · rw [h4 j hi, rd_set hb0, if_pos rfl, hx]; rfl
      · rw [h3 j hj', rd_set hb0, if_neg]
        rintro rfl; exact hi hj'
    · intro j hj
      rw [List.mem_cons, not_or] at hj
      rw [h4 j hj.2, rd_set hb0, if_neg hj.1]

/-- What the statements of a conversion write. -/
theorem mem_convert {toComplex : Bool} {n : Int} {blocks threads : Nat} (hb : 0 < blocks) (ht : 0 < threads) (w : Int × Option Int) :
    w ∈ allThreads blocks threads (convertThread toComplex n blocks threads) ↔
      ∃ i : Int, (0 ≤ i ∧ i < n) ∧ w ∈ (if toComplex then [(2 * i, some i), (2 * i + 1, none)] else [(i, some (2 * i))]) := by
  rw [mem_allThreads]
  unfold convertThread
  simp only [List.mem_flatMap]
  constructor
  · rintro ⟨b, hb', t, ht', i, hi, hw⟩
    exact ⟨i, (mem_grid hb ht).1 ⟨b, hb', t, ht', hi⟩, hw⟩
  · rintro ⟨i, hi, hw⟩
    obtain ⟨b, hb', t, ht', hi⟩ := (mem_grid hb ht).2 hi
    exact ⟨b, hb', t, ht', i, hi, hw⟩

theorem convertValues_lt {toComplex : Bool} {n limit : Int} {blocks threads : Nat} (hb : 0 < blocks) (ht : 0 < threads) (h2 : 2 * n ≤ limit)
    (h3 : n + (threads * blocks : Nat) ≤ limit) :
    ∀ v ∈ allThreads blocks threads (convertValues toComplex n blocks threads), v < limit := by
  intro v hv
  obtain ⟨b, hb', t, ht', hv⟩ := mem_allThreads.1 hv
  obtain ⟨i, hi, hv⟩ := List.mem_flatMap.1 hv
  have := (mem_grid hb ht).1 ⟨b, hb', t, ht', hi⟩
  simp only [List.mem_cons, List.not_mem_nil, or_false] at hv
  rcases hv with rfl | rfl
  · split <;> omega
  · omega

/-- The statements of a conversion, in any order. -/
theorem convert_writes {β : Type} [Zero β] {toComplex : Bool} {n : Int} {order : List (Int × Option Int)}
    (ho : ∀ w, w ∈ order ↔ ∃ i : Int, (0 ≤ i ∧ i < n) ∧ w ∈ (if toComplex then [(2 * i, some i), (2 * i + 1, none)] else [(i, some (2 * i))]))
    {src dst : List β} (hs : (if toComplex then n else 2 * n) ≤ src.length) (hd : (if toComplex then 2 * n else n) ≤ dst.length) :
    ∃ out, writeAll (order.map fun w => (w.1, valueOf src w.2)) dst = .ok out ∧ out.length = dst.length ∧
      (∀ i : Int, 0 ≤ i → i < n → if toComplex then rd out (2 * i) = rd src i ∧ rd out (2 * i + 1) = some 0 else rd out i = rd src (2 * i)) ∧
      ∀ x, (if toComplex then 2 * n else n) ≤ x → rd out x = rd dst x := by
  have hw : ∀ w, w ∈ order.map (fun w => (w.1, valueOf src w.2)) ↔
      ∃ i : Int, (0 ≤ i ∧ i < n) ∧ w ∈ (if toComplex then [(2 * i, rd src i), (2 * i + 1, some 0)] else [(i, rd src (2 * i))]) := by
    intro w
    rw [List.mem_map]
    constructor
    · rintro ⟨u, hu, rfl⟩
      obtain ⟨i, hi, hu⟩ := (ho u).1 hu
      refine ⟨i, hi, ?_⟩
      cases toComplex
      · simp only [Bool.false_eq_true, if_false, List.mem_singleton] at hu ⊢
        rw [hu]; rfl
      · simp only [if_true, List.mem_cons, List.not_mem_nil, or_false] at hu ⊢
        rcases hu with rfl | rfl <;> simp [valueOf]
    · rintro ⟨i, hi, hw⟩
      cases toComplex
      · simp only [Bool.false_eq_true, if_false, List.mem_singleton] at hw
        exact ⟨(i, some (2 * i)), (ho _).2 ⟨i, hi, by simp⟩, hw.symm⟩
      · simp only [if_true, List.mem_cons, List.not_mem_nil, or_false] at hw
        rcases hw with rfl | rfl
        · exact ⟨(2 * i, some i), (ho _).2 ⟨i, hi, by simp⟩, rfl⟩
        · exact ⟨(2 * i + 1, none), (ho _).2 ⟨i, hi, by simp⟩, rfl⟩
  obtain ⟨out, h1, h2, h3, h4⟩ := writeAll_ok (order.map fun w => (w.1, valueOf src w.2)) dst
    (by
      intro w hw'
      obtain ⟨i, hi, hw'⟩ := (hw w).1 hw'
      cases toComplex
      · simp only [Bool.false_eq_true, if_false, List.mem_singleton] at hw' hs hd
        obtain ⟨x, hx⟩ := rd_some_iff.2 (show 0 ≤ 2 * i ∧ 2 * i < src.length by omega)
        rw [hw']
        exact ⟨by rw [hx]; rfl, by dsimp only; omega, by dsimp only; omega⟩
      · simp only [if_true, List.mem_cons, List.not_mem_nil, or_false] at hw' hs hd
        obtain ⟨x, hx⟩ := rd_some_iff.2 (show 0 ≤ i ∧ i < src.length by omega)
        rcases hw' with rfl | rfl
        · exact ⟨by rw [hx]; rfl, by dsimp only; omega, by dsimp only; omega⟩
        · exact ⟨rfl, by dsimp only; omega, by dsimp only; omega⟩)
    (by
      intro w hw' u hu h
      obtain ⟨i, hi, hw'⟩ := (hw w).1 hw'
      obtain ⟨j, hj, hu⟩ := (hw u).1 hu
      cases toComplex
      · simp only [Bool.false_eq_true, if_false, List.mem_singleton] at hw' hu
        rw [hw', hu] at h ⊢
        dsimp only at h ⊢
        rw [h]
      · simp only [if_true, List.mem_cons, List.not_mem_nil, or_false] at hw' hu
        rcases hw' with rfl | rfl <;> rcases hu with rfl | rfl <;> dsimp only at h ⊢
        · rw [show i = j by omega]
        · omega
        · omega)
  refine ⟨out, h1, h2, fun i hi0 hi1 => ?_, fun x hx => h4 x fun w hw' => ?_⟩
  · cases toComplex
    · simp only [Bool.false_eq_true, if_false]
      exact h3 _ ((hw (i, rd src (2 * i))).2 ⟨i, ⟨hi0, hi1⟩, by simp⟩)
    · simp only [if_true]
      exact ⟨h3 _ ((hw (2 * i, rd src i)).2 ⟨i, ⟨hi0, hi1⟩, by simp⟩), h3 _ ((hw (2 * i + 1, some 0)).2 ⟨i, ⟨hi0, hi1⟩, by simp⟩)⟩
  · obtain ⟨i, hi, hw'⟩ := (hw w).1 hw'
    cases toComplex
    · simp only [Bool.false_eq_true, if_false, List.mem_singleton] at hw' hx
      rw [hw']; dsimp only; omega
    · simp only [if_true, List.mem_cons, List.not_mem_nil, or_false] at hw' hx
      rcases hw' with rfl | rfl <;> dsimp only <;> omega

end Verif
