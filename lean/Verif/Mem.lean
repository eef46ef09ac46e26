import Verif.Basic
import Mathlib.Data.List.Basic
import Mathlib.Tactic.Linarith
import Mathlib.Tactic.Ring

/-!
# Arrays

An array of the C++ code is a list together with bounds-checked access; an address is an integer.  Access out of
bounds is the outcome `ub`.  A copy loop of the C++ code is the list of its element moves in program order.
-/

namespace Verif
variable {α : Type}

/-- Read `mem[a]`, `none` out of bounds. -/
def rd (mem : List α) (a : Int) : Option α := if 0 ≤ a then mem[a.toNat]? else none

/-- Write `mem[a] = v`, `none` out of bounds. -/
def wr (mem : List α) (a : Int) (v : α) : Option (List α) :=
  if 0 ≤ a ∧ a < mem.length then some (mem.set a.toNat v) else none

/-- Perform the writes in sequence; the value of a write is `none` when reading it was out of bounds. -/
def writeAll : List (Int × Option α) → List α → Res (List α)
  | [], mem => .ok mem
  | (a, v) :: t, mem =>
    match v with
    | none => .error .ub
    | some v =>
      match wr mem a v with
      | none => .error .ub
      | some m => writeAll t m

/-- Perform the moves `dst[m.1] = src[m.2]` in sequence, for arrays that do not overlap. -/
def copyMoves (moves : List (Int × Int)) (src dst : List α) : Res (List α) :=
  writeAll (moves.map fun m => (m.1, rd src m.2)) dst

/-- The iterations of `for(index i=0; i<n; i++)`. -/
def loop (n : Int) : List Int := (List.range n.toNat).map Int.ofNat

@[simp] theorem mem_loop {n i : Int} : i ∈ loop n ↔ 0 ≤ i ∧ i < n := by
  simp only [loop, List.mem_map, List.mem_range]
  constructor
  · rintro ⟨k, hk, rfl⟩; simp only [Int.ofNat_eq_natCast]; omega
  · rintro ⟨h0, h1⟩; exact ⟨i.toNat, by omega, by simp only [Int.ofNat_eq_natCast]; omega⟩

theorem loop_length (n : Int) : (loop n).length = n.toNat := by simp [loop]

theorem loop_getElem? (n : Int) (i : Nat) : (loop n)[i]? = if (i : Int) < n then some (i : Int) else none := by
  simp only [loop, List.getElem?_map]
  by_cases h : (i : Int) < n
  · rw [List.getElem?_range (by omega)]; simp [h]
  · rw [List.getElem?_eq_none (by simp; omega)]; simp [h]

/-- The iterations of `for(index i=b; i<e; i++)`. -/
def loopFrom (b e : Int) : List Int := (loop (e - b)).map (b + ·)

@[simp] theorem mem_loopFrom {b e i : Int} : i ∈ loopFrom b e ↔ b ≤ i ∧ i < e := by
  simp only [loopFrom, List.mem_map, mem_loop]
  constructor
  · rintro ⟨k, hk, rfl⟩; omega
  · rintro ⟨h0, h1⟩; exact ⟨i - b, by omega, by omega⟩

/-- The iterations of `for(index b=i; b<n; b+=stride)`, which does not end for `stride = 0`; the block size
`256 / sizeof(scalar_type)` is positive for the scalar types of the library. -/
def loopBy (stride : Nat) (n i : Int) : List Int :=
  if 0 < stride ∧ i < n then i :: loopBy stride n (i + stride) else []
termination_by (n - i).toNat

/-- The blocks of a blocked loop cover the range once more or less: every index is in some block and every block is
inside of the range. -/
theorem mem_blocks {stride : Nat} (hs : 0 < stride) (n : Int) (m : Nat) :
    ∀ s i : Int, 0 ≤ s → (n - s).toNat ≤ m →
      ((∃ b ∈ loopBy stride n s, i ∈ loopFrom b (min (b + stride) n)) ↔ s ≤ i ∧ i < n) := by
  induction m with
  | zero =>
    intro s i h0 hm
    unfold loopBy
    rw [if_neg (by omega)]
    simp; omega
  | succ m ih =>
    intro s i h0 hm
    unfold loopBy
    by_cases h : s < n
    · rw [if_pos ⟨hs, h⟩]
      simp only [List.mem_cons, exists_eq_or_imp]
      rw [ih (s + stride) i (by omega) (by omega), mem_loopFrom]
      omega
    · rw [if_neg (by omega)]
      simp; omega

theorem mem_blocks_zero {stride : Nat} (hs : 0 < stride) (n i : Int) :
    (∃ b ∈ loopBy stride n 0, i ∈ loopFrom b (min (b + stride) n)) ↔ 0 ≤ i ∧ i < n :=
  mem_blocks hs n _ 0 i le_rfl le_rfl

theorem rd_some_iff {mem : List α} {a : Int} : (∃ v, rd mem a = some v) ↔ 0 ≤ a ∧ a < mem.length := by
  unfold rd
  split
  · rw [← Option.isSome_iff_exists, Option.isSome_iff_ne_none, ne_eq, List.getElem?_eq_none_iff]; omega
  · simp; omega

theorem rd_eq_none {mem : List α} {a : Int} (h : ¬ (0 ≤ a ∧ a < mem.length)) : rd mem a = none := by
  by_contra hc
  exact h (rd_some_iff.1 (Option.ne_none_iff_exists'.1 hc))

theorem rd_set {mem : List α} {a b : Int} {v : α} (ha : 0 ≤ a ∧ a < mem.length) :
    rd (mem.set a.toNat v) b = if b = a then some v else rd mem b := by
  unfold rd
  by_cases hb : 0 ≤ b
  · simp only [hb, if_true, List.getElem?_set]
    by_cases h : b = a
    · subst h; simp; omega
    · rw [if_neg (by omega), if_neg h]
  · rw [if_neg hb, if_neg hb, if_neg (by omega)]

theorem rd_append_left {m t : List α} {a : Int} (h : a < m.length) : rd (m ++ t) a = rd m a := by
  unfold rd
  split
  · rw [List.getElem?_append_left (by omega)]
  · rfl

theorem rd_take {m : List α} {a : Int} {n : Nat} (h : a < n) : rd (m.take n) a = rd m a := by
  unfold rd
  split
  · rw [List.getElem?_take_of_lt (by omega)]
  · rfl

theorem rd_drop {m : List α} {a : Int} {n : Nat} (h : 0 ≤ a) : rd (m.drop n) a = rd m (n + a) := by
  unfold rd
  rw [if_pos h, if_pos (by omega), List.getElem?_drop]
  congr 1; omega

theorem ext_rd {a b : List α} (hl : a.length = b.length) (h : ∀ i : Int, 0 ≤ i → i < a.length → rd a i = rd b i) : a = b := by
  apply List.ext_getElem? 
  intro i
  by_cases hi : i < a.length
  · have := h i (by omega) (by omega)
    simpa [rd] using this
  · rw [List.getElem?_eq_none (by omega), List.getElem?_eq_none (by omega)]

/-- Writes that are in bounds and agree where they meet succeed, each written entry has its value and the other
entries keep theirs. -/
theorem writeAll_ok : ∀ (ws : List (Int × Option α)) (mem : List α)
    (_ : ∀ w ∈ ws, w.2.isSome ∧ 0 ≤ w.1 ∧ w.1 < mem.length)
    (_ : ∀ w ∈ ws, ∀ u ∈ ws, w.1 = u.1 → w.2 = u.2),
    ∃ r, writeAll ws mem = .ok r ∧ r.length = mem.length ∧ (∀ w ∈ ws, rd r w.1 = w.2) ∧
      ∀ i, (∀ w ∈ ws, w.1 ≠ i) → rd r i = rd mem i
  | [], mem, _, _ => ⟨mem, rfl, rfl, by simp, fun _ _ => rfl⟩
  | (a, v) :: t, mem, hb, hc => by
    obtain ⟨hv, h0, h1⟩ := hb (a, v) (by simp)
    obtain ⟨v, rfl⟩ := Option.isSome_iff_exists.1 hv
    dsimp only at h0 h1
    obtain ⟨r, hr, hl, hw, ho⟩ := writeAll_ok t (mem.set a.toNat v)
      (fun w hw => by have := hb w (by simp [hw]); simpa using this)
      (fun w hw u hu => hc w (by simp [hw]) u (by simp [hu]))
    refine ⟨r, ?_, by simpa using hl, ?_, ?_⟩
    · simp only [writeAll, wr, h0, h1, and_self, if_true]; exact hr
    · intro w hw'
      rcases List.mem_cons.1 hw' with rfl | hw'
      · by_cases hex : ∃ u ∈ t, u.1 = a
        · obtain ⟨u, hu, hua⟩ := hex
          have := hc u (by simp [hu]) (a, some v) (by simp) hua
          dsimp only at this ⊢
          rw [← hua, hw u hu, this]
        · simp only [not_exists, not_and] at hex
          rw [ho a (fun u hu => hex u hu), rd_set ⟨h0, h1⟩, if_pos rfl]
      · exact hw w hw'
    · intro i hi
      rw [ho i (fun u hu => hi u (by simp [hu])), rd_set ⟨h0, h1⟩, if_neg]
      exact fun h => hi (a, some v) (by simp) h.symm

/-- An out-of-bounds write makes the whole sequence undefined. -/
theorem writeAll_ub {ws : List (Int × Option α)} {mem : List α} {w : Int × Option α} (hw : w ∈ ws)
    (h : w.2 = none ∨ w.1 < 0 ∨ (mem.length : Int) ≤ w.1) : writeAll ws mem = .error .ub := by
  induction ws generalizing mem with
  | nil => simp at hw
  | cons u t ih =>
    obtain ⟨a, v⟩ := u
    cases v with
    | none => rfl
    | some v =>
      unfold writeAll
      simp only
      unfold wr
      split
      · rename_i heq; rfl
      · rename_i m heq
        split at heq
        · rename_i hb
          simp only [Option.some.injEq] at heq
          rcases List.mem_cons.1 hw with rfl | hw
          · rcases h with h | h | h
            · cases h
            · dsimp only at h; omega
            · dsimp only at h; omega
          · apply ih hw
            rw [← heq]; simpa using h
        · cases heq

/-- `writeAll_ok` for moves. -/
theorem copyMoves_ok {moves : List (Int × Int)} {src dst : List α}
    (hb : ∀ m ∈ moves, (0 ≤ m.2 ∧ m.2 < src.length) ∧ 0 ≤ m.1 ∧ m.1 < dst.length)
    (hc : ∀ m ∈ moves, ∀ u ∈ moves, m.1 = u.1 → m.2 = u.2) :
    ∃ r, copyMoves moves src dst = .ok r ∧ r.length = dst.length ∧ (∀ m ∈ moves, rd r m.1 = rd src m.2) ∧
      ∀ i, (∀ m ∈ moves, m.1 ≠ i) → rd r i = rd dst i := by
  have h1 : ∀ w : Int × Option α, w ∈ moves.map (fun m => (m.1, rd src m.2)) → w.2.isSome ∧ 0 ≤ w.1 ∧ w.1 < dst.length := by
    simp only [List.mem_map]
    rintro w ⟨m, hm, rfl⟩
    obtain ⟨h1, h2⟩ := hb m hm
    exact ⟨Option.isSome_iff_exists.2 (rd_some_iff.2 h1), h2⟩
  have h2 : ∀ w ∈ moves.map (fun m => (m.1, rd src m.2)), ∀ u ∈ moves.map (fun m => (m.1, rd src m.2)),
      w.1 = u.1 → w.2 = u.2 := by
    simp only [List.mem_map]
    rintro w ⟨m, hm, rfl⟩ u ⟨n, hn, rfl⟩ h
    dsimp only at h ⊢
    rw [hc m hm n hn h]
  obtain ⟨r, hr, hl, hw, ho⟩ := writeAll_ok (moves.map fun m => (m.1, rd src m.2)) dst h1 h2
  refine ⟨r, hr, hl, ?_, ?_⟩
  · intro m hm
    exact hw (m.1, rd src m.2) (List.mem_map.2 ⟨m, hm, rfl⟩)
  · intro i hi
    apply ho
    simp only [List.mem_map]
    rintro w ⟨m, hm, rfl⟩
    exact hi m hm

end Verif
