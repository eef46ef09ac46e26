import Verif.Basic
import Mathlib.Tactic.Linarith
import Mathlib.Tactic.Ring

/-!
# The call graph of the stock FFT

`/repo/include/stock_fft/heffte_stock_tree.h` is cited as `tree.h`.  `size_t` is an unbounded natural number.
`HEFFTE_STOCK_THRESHOLD` is 1 (heffte_stock_algos.h:17), `HEFFTE_STOCK_RADER_MIN` is 100000 (tree.h:14).
All the functions are only used for `N >= 1`: an executor is made for non-empty boxes only (heffte_common.h:670-708).
For `N = 0` the loop in `power_of` does not end; the definitions here return some value, `stockPlan` rejects it.
-/

namespace Verif.Stock

/-- `factors` (tree.h:20-39). -/
def factorTable : List Nat := [4, 2, 3, 5, 7, 11, 13, 16, 17, 19,
  23, 29, 31, 37, 41, 43, 47, 53, 59, 61,
  67, 71, 73, 79, 83, 89, 97, 101, 103, 107,
  109, 113, 127, 131, 137, 139, 149, 151, 157, 163,
  167, 173, 179, 181, 191, 193, 197, 199, 211, 223,
  227, 229, 233, 239, 241, 251, 257, 263, 269, 271,
  277, 281, 283, 293, 307, 311, 313, 317, 331, 337,
  347, 349, 353, 359, 367, 373, 379, 383, 389, 397,
  401, 409, 419, 421, 431, 433, 439, 443, 449, 457,
  461, 463, 467, 479, 487, 491, 499, 503, 509, 521,
  523, 541, 547, 557, 563, 569, 571, 577, 587, 593,
  599, 601, 607, 613, 617, 619, 631, 641, 643, 647,
  653, 659, 661, 673, 677, 683, 691, 701, 709, 719,
  727, 733, 739, 743, 751, 757, 761, 769, 773, 787,
  797, 809, 811, 821, 823, 827, 829, 839, 853, 857,
  859, 863, 877, 881, 883, 887, 907, 911, 919, 929,
  937, 941, 947, 953, 967, 971, 977, 983, 991, 997,
  1009, 1013, 1019, 1021, 1031, 1033, 1039, 1049, 1051, 1061,
  1063, 1069, 1087, 1091, 1093, 1097, 1103, 1109, 1117, 1123,
  1129, 1151, 1153, 1163, 1171, 1181, 1187, 1193, 1201, 1213]

/-- The second loop of `factor` with the final `return f` (tree.h:51-56). -/
def factorOdd (f k : Nat) : Nat :=
  if k * k < f then
    if f % k = 0 then k else factorOdd f (k + 2)
  else f
termination_by f - k
decreasing_by
  have : k ≤ k * k := Nat.le_mul_self k
  omega

/-- `factor` (tree.h:42-57). -/
def factor (f : Nat) : Nat :=
  if f < 1 then f
  else match factorTable.find? fun k => decide (f % k = 0) with
    | some k => k
    | none => factorOdd f 1213

/-- `while((f % k) == 0) f /= k;`, for `f > 0` and `k > 1`. -/
def strip (k f : Nat) : Nat :=
  if 1 < k ∧ 0 < f ∧ f % k = 0 then strip k (f / k) else f
termination_by f
decreasing_by exact Nat.div_lt_self (by omega) (by omega)

theorem strip_le (k : Nat) : ∀ f, strip k f ≤ f := by
  intro f
  induction f using Nat.strong_induction_on with
  | _ f ih =>
    unfold strip
    split
    · rename_i h
      have := Nat.div_lt_self h.2.1 h.1
      exact le_trans (ih _ this) this.le
    · exact le_rfl

/-- The second loop of `findFactorRader` (tree.h:70-75). -/
def raderOdd (whole f k : Nat) : List Nat :=
  if k ≤ f then
    if f % k = 0 then (whole / k) :: raderOdd whole (strip k f) (k + 2) else raderOdd whole f (k + 2)
  else []
termination_by f + 1 - k
decreasing_by
  · have := strip_le k f
    omega
  · omega

/-- `findFactorRader` (tree.h:60-77). -/
def findFactorRader (f : Nat) : List Nat :=
  if f % 2 = 0 then (f / 2) :: raderOdd f (strip 2 f) 3 else raderOdd f f 3

/-- The loop of `modPow` (tree.h:82-88). -/
def modPowLoop (mod ret base pow : Nat) : Nat :=
  if 0 < pow then
    modPowLoop mod (if pow % 2 ≠ 0 then ret * base % mod else ret) (base * base % mod) (pow / 2)
  else ret
termination_by pow
decreasing_by exact Nat.div_lt_self (by omega) (by omega)

/-- `modPow` (tree.h:80-90). -/
def modPow (base pow mod : Nat) : Nat := modPowLoop mod 1 base pow

/-- The `while` loop of `primeRoot` (tree.h:98-108): a candidate is accepted when the inner loop runs at least once and
never finds a power 1.  The candidate `p` is always accepted (`p^i = 0` modulo `p`), the search is stopped there. -/
def primeRootFrom (p : Nat) (powers : List Nat) (curr : Nat) : Nat :=
  if powers ≠ [] ∧ ∀ i ∈ powers, modPow curr i p ≠ 1 then curr
  else if curr < p then primeRootFrom p powers (curr + 1) else curr
termination_by p - curr

/-- `primeRoot` (tree.h:93-110). -/
def primeRoot (p : Nat) : Nat := primeRootFrom p (findFactorRader (p - 1)) 2

/-- The number of one bits of `k` (tree.h:118). -/
def bits (k : Nat) : Nat := if 0 < k then k % 2 + bits (k / 2) else 0
termination_by k
decreasing_by exact Nat.div_lt_self (by omega) (by omega)

/-- `power_of` (tree.h:113-123). -/
def powerOf (n pow : Nat) : Bool :=
  if n = 1 then false
  else if pow = 2 then decide (n % 2 + bits n = 1)
  else decide (strip pow n = 1)

/-- `fft_type` (heffte_stock_algos.h:42). -/
inductive FftType where
  | pow2 | pow3 | pow4 | composite | discrete | rader
deriving DecidableEq, Repr

/-- `numNodesFactorHelper` (tree.h:130-156). -/
def numNodesFactorHelper (N : Nat) : Nat :=
  if powerOf N 4 || powerOf N 2 || powerOf N 3 then N
  else if N % 4 = 0 then N / strip 4 N
  else if N % 2 = 0 then N / strip 2 N
  else if N % 3 = 0 then N / strip 3 N
  else
    let k := factor N
    if k = N ∧ k > 100000 then N - 1 else k

/-- `getLeftover` (tree.h:159-161). -/
def getLeftover (N k : Nat) : Nat := if k = N - 1 then 0 else N / k

/-- `fptrFactorHelper` (tree.h:164-205). -/
def fptrFactorHelper (N : Nat) : FftType × Nat :=
  if N < 1 then (.discrete, N)
  else if powerOf N 4 then (.pow4, N)
  else if powerOf N 2 then (.pow2, N)
  else if powerOf N 3 then (.pow3, N)
  else if N % 4 = 0 then (.composite, N / strip 4 N)
  else if N % 2 = 0 then (.composite, N / strip 2 N)
  else if N % 3 = 0 then (.composite, N / strip 3 N)
  else
    let k := factor N
    if k = N then
      if N > 100000 then (.rader, N - 1) else (.discrete, k)
    else (.composite, k)

/-! ## Facts needed for termination -/

theorem strip_pos (k : Nat) : ∀ f, 0 < f → 0 < strip k f := by
  intro f
  induction f using Nat.strong_induction_on with
  | _ f ih =>
    intro hf
    unfold strip
    split
    · rename_i h
      refine ih _ (Nat.div_lt_self h.2.1 h.1) ?_
      exact Nat.div_pos (Nat.le_of_dvd hf (Nat.dvd_of_mod_eq_zero h.2.2)) (by omega)
    · exact hf

/-- The part of `f` that the loop removes is a power of `k`. -/
theorem strip_spec {k : Nat} (hk : 1 < k) : ∀ f, 0 < f → ∃ e, f = k ^ e * strip k f ∧ ¬ k ∣ strip k f := by
  intro f
  induction f using Nat.strong_induction_on with
  | _ f ih =>
    intro hf
    unfold strip
    split
    · rename_i h
      have hd := Nat.dvd_of_mod_eq_zero h.2.2
      obtain ⟨e, h1, h2⟩ := ih _ (Nat.div_lt_self h.2.1 h.1) (Nat.div_pos (Nat.le_of_dvd hf hd) (by omega))
      refine ⟨e + 1, ?_, h2⟩
      rw [pow_succ, mul_right_comm, ← h1]
      exact (Nat.div_mul_cancel hd).symm
    · rename_i h
      refine ⟨0, by simp, fun hd => h ⟨hk, hf, Nat.mod_eq_zero_of_dvd hd⟩⟩

theorem bits_pos (k : Nat) : 0 < k → 0 < bits k := by
  induction k using Nat.strong_induction_on with
  | _ k ih =>
    intro hk
    unfold bits
    rw [if_pos hk]
    by_cases h : k % 2 = 0
    · have := ih (k / 2) (by omega) (by omega)
      omega
    · omega

theorem bits_pow (e : Nat) : bits (2 ^ e) = 1 := by
  induction e with
  | zero => unfold bits bits; rfl
  | succ e ih =>
    unfold bits
    rw [if_pos (by positivity), pow_succ, Nat.mul_mod_left, Nat.mul_div_cancel _ (by omega), ih]

theorem bits_one {k : Nat} : bits k = 1 → ∃ e, k = 2 ^ e := by
  induction k using Nat.strong_induction_on with
  | _ k ih =>
    intro h
    unfold bits at h
    split at h
    · by_cases h2 : k % 2 = 0
      · obtain ⟨e, he⟩ := ih (k / 2) (by omega) (by omega)
        exact ⟨e + 1, by rw [pow_succ, ← he]; omega⟩
      · have : ¬ 0 < k / 2 := fun hp => by have := bits_pos _ hp; omega
        exact ⟨0, by rw [pow_zero]; omega⟩
    · omega

/-- `power_of(N, k)` says that `N` is a power of `k` with a positive exponent. -/
theorem powerOf_iff {N k : Nat} (hN : 0 < N) (hk : 1 < k) : powerOf N k = true ↔ ∃ e, N = k ^ (e + 1) := by
  unfold powerOf
  by_cases h1 : N = 1
  · rw [if_pos h1]
    simp only [Bool.false_eq_true, false_iff, not_exists]
    intro e he
    have : 1 < k ^ (e + 1) := Nat.one_lt_pow (by omega) hk
    omega
  · rw [if_neg h1]
    by_cases h2 : k = 2
    · subst h2
      rw [if_pos rfl, decide_eq_true_iff]
      constructor
      · intro h
        have := bits_pos N hN
        obtain ⟨e, he⟩ := bits_one (k := N) (by omega)
        cases e with
        | zero => simp at he; omega
        | succ e => exact ⟨e, he⟩
      · rintro ⟨e, rfl⟩
        rw [bits_pow, pow_succ, Nat.mul_mod_left]
    · rw [if_neg h2, decide_eq_true_iff]
      constructor
      · intro h
        obtain ⟨e, he, -⟩ := strip_spec hk N hN
        rw [h, mul_one] at he
        cases e with
        | zero => simp at he; omega
        | succ e => exact ⟨e, he⟩
      · rintro ⟨e, rfl⟩
        clear h1 hN
        induction e with
        | zero =>
          unfold strip
          rw [zero_add, pow_one, if_pos ⟨hk, by omega, Nat.mod_self k⟩, Nat.div_self (by omega)]
          unfold strip
          rw [if_neg (fun h => by rw [Nat.mod_eq_of_lt hk] at h; omega)]
        | succ e ih =>
          unfold strip
          rw [if_pos ⟨hk, by positivity, by rw [pow_succ]; exact Nat.mul_mod_left _ _⟩, pow_succ,
            Nat.mul_div_cancel _ (by omega)]
          exact ih

theorem factorOdd_cases (f : Nat) : ∀ k, (factorOdd f k = f) ∨ (factorOdd f k ∣ f ∧ k ≤ factorOdd f k ∧ factorOdd f k < f) := by
  intro k
  induction hm : f - k using Nat.strong_induction_on generalizing k with
  | _ m ih =>
    unfold factorOdd
    have hle : k ≤ k * k := Nat.le_mul_self k
    split
    · rename_i hk
      split
      · rename_i hd
        exact Or.inr ⟨Nat.dvd_of_mod_eq_zero hd, le_rfl, by omega⟩
      · rcases ih (f - (k + 2)) (by omega) (k + 2) rfl with h | ⟨h1, h2, h3⟩
        · exact Or.inl h
        · exact Or.inr ⟨h1, by omega, h3⟩
    · exact Or.inl rfl

theorem factor_dvd {f : Nat} : factor f ∣ f := by
  unfold factor
  split
  · exact dvd_rfl
  · split
    · rename_i k h
      have := List.find?_some h
      exact Nat.dvd_of_mod_eq_zero (by simpa using this)
    · rcases factorOdd_cases f 1213 with h | ⟨h, -⟩
      · rw [h]
      · exact h

theorem factor_gt_one {f : Nat} (hf : 1 < f) : 1 < factor f := by
  unfold factor
  rw [if_neg (by omega)]
  split
  · rename_i k h
    have := List.mem_of_find?_eq_some h
    exact (by decide +kernel : ∀ k ∈ factorTable, 1 < k) k this
  · rcases factorOdd_cases f 1213 with h | ⟨-, h, -⟩ <;> omega

/-- In the composite case the factor is proper. -/
theorem helper_composite {N k : Nat} (h : fptrFactorHelper N = (.composite, k)) : 1 < k ∧ k < N ∧ k ∣ N := by
  unfold fptrFactorHelper at h
  have key : ∀ r, 1 < r → 0 < N → powerOf N r = false → N % r = 0 → 1 < N / strip r N ∧ N / strip r N < N ∧ N / strip r N ∣ N := by
    intro r hr hN hp hd
    obtain ⟨e, he, hnd⟩ := strip_spec hr N hN
    have hs := strip_pos r N hN
    have hdiv : N / strip r N = r ^ e := Nat.div_eq_of_eq_mul_left hs he
    have he0 : e ≠ 0 := by
      rintro rfl
      rw [pow_zero, one_mul] at he
      rw [← he] at hnd
      exact hnd (Nat.dvd_of_mod_eq_zero hd)
    have hs1 : strip r N ≠ 1 := by
      intro h1
      rw [h1, mul_one] at he
      obtain ⟨e', rfl⟩ := Nat.exists_eq_succ_of_ne_zero he0
      rw [(powerOf_iff hN hr).2 ⟨e', he⟩] at hp
      simp at hp
    rw [hdiv]
    have hr1 : 1 < r ^ e := Nat.one_lt_pow he0 hr
    refine ⟨hr1, ?_, ⟨_, he⟩⟩
    calc r ^ e = r ^ e * 1 := (mul_one _).symm
      _ < r ^ e * strip r N := Nat.mul_lt_mul_of_pos_left (by omega) (by omega)
      _ = N := he.symm
  split at h
  · simp at h
  rename_i hN
  split at h
  · simp at h
  rename_i h4
  split at h
  · simp at h
  rename_i h2
  split at h
  · simp at h
  rename_i h3
  split at h
  · simp only [Prod.mk.injEq, true_and] at h
    rw [← h]; exact key 4 (by omega) (by omega) (by simpa using h4) (by assumption)
  split at h
  · simp only [Prod.mk.injEq, true_and] at h
    rw [← h]; exact key 2 (by omega) (by omega) (by simpa using h2) (by assumption)
  split at h
  · simp only [Prod.mk.injEq, true_and] at h
    rw [← h]; exact key 3 (by omega) (by omega) (by simpa using h3) (by assumption)
  dsimp only at h
  split at h
  · split at h <;> simp at h
  · rename_i hne
    simp only [Prod.mk.injEq, true_and] at h
    subst h
    have hd := factor_dvd (f := N)
    have hle := Nat.le_of_dvd (by omega) hd
    have hN1 : N ≠ 1 := by
      rintro rfl
      exact hne (Nat.dvd_one.1 hd)
    exact ⟨factor_gt_one (by omega), by omega, hd⟩

theorem helper_rader {N k : Nat} (h : fptrFactorHelper N = (.rader, k)) : 100000 < N ∧ k = N - 1 ∧ factor N = N := by
  unfold fptrFactorHelper at h
  dsimp only at h
  split_ifs at h with h0 h4 h2 h3 g4 g2 g3 hk hr <;> simp at h
  exact ⟨hr, h.symm, hk⟩

/-! ## The call graph -/

/-- The nodes reachable from one `biFuncNode` (heffte_stock_algos.h:79-90).  The code stores the nodes of a tree in one
array; `Tree.nodes` below is this array. -/
inductive Tree where
  | leaf (type : FftType) (sz : Nat)
  | composite (sz : Nat) (left right : Tree)
  | rader (sz root rootInv : Nat) (left : Tree)
deriving Repr

/-- `sz`. -/
def Tree.sz : Tree → Nat
  | .leaf _ n => n
  | .composite n _ _ => n
  | .rader n _ _ _ => n

/-- `init_fft_tree` (tree.h:209-232). -/
def initTree (N : Nat) : Tree :=
  match h : fptrFactorHelper N with
  | (.composite, k) => .composite N (initTree k) (initTree (getLeftover N k))
  | (.rader, k) => .rader N (primeRoot N) (modPow (primeRoot N) (N - 2) N) (initTree k)
  | (t, _) => .leaf t N
termination_by N
decreasing_by
  · exact (helper_composite h).2.1
  · have := helper_composite h
    unfold getLeftover
    split
    · omega
    · exact Nat.div_lt_self (by omega) this.1
  · have := helper_rader h
    omega

/-- `biFuncNode` without its workspace (heffte_stock_algos.h:79-90). -/
structure Node where
  sz : Nat
  type : FftType
  root : Nat
  rootInv : Nat
  left : Nat
  right : Nat
deriving DecidableEq, Repr

/-- The number of nodes, which is what `init_fft_tree` returns (tree.h:224, 231). -/
def Tree.count : Tree → Nat
  | .leaf _ _ => 1
  | .composite _ l r => 1 + l.count + r.count
  | .rader _ _ _ l => 1 + l.count + 0

/-- The array written by `init_fft_tree` (tree.h:209-232): the node, then the nodes of the left child, then those of the
right child; `left` and `right` are offsets. -/
def Tree.nodes : Tree → List Node
  | .leaf t n => [⟨n, t, 0, 0, 0, 0⟩]
  | .composite n l r => ⟨n, .composite, 0, 0, 1, 1 + l.count⟩ :: (l.nodes ++ r.nodes)
  | .rader n a b l => ⟨n, .rader, a, b, 1, 1 + l.count⟩ :: l.nodes

theorem numNodesFactorHelper_lt {N : Nat} (hN : 0 < N) (h : numNodesFactorHelper N ≠ N) :
    numNodesFactorHelper N < N ∧ 0 < numNodesFactorHelper N ∧ getLeftover N (numNodesFactorHelper N) < N := by
  have key : ∀ k, k ∣ N → k ≠ N → 1 < k → k < N ∧ 0 < k ∧ getLeftover N k < N := by
    intro k hd hne h1
    have := Nat.le_of_dvd hN hd
    refine ⟨by omega, by omega, ?_⟩
    unfold getLeftover
    split
    · omega
    · exact Nat.div_lt_self hN h1
  have hdiv : ∀ r, strip r N ∣ N := by
    intro r
    by_cases hr : 1 < r
    · obtain ⟨e, he, -⟩ := strip_spec hr N hN
      exact ⟨r ^ e, by rw [mul_comm]; exact he⟩
    · unfold strip
      rw [if_neg (fun h => hr h.1)]
  have key2 : ∀ r, 1 < r → N % r = 0 → N / strip r N ≠ N →
      N / strip r N < N ∧ 0 < N / strip r N ∧ getLeftover N (N / strip r N) < N := by
    intro r hr hd hne
    refine key _ (Nat.div_dvd_of_dvd (hdiv r)) hne ?_
    obtain ⟨e, he, hnd⟩ := strip_spec hr N hN
    have hs := strip_pos r N hN
    have hq : N / strip r N = r ^ e := Nat.div_eq_of_eq_mul_left hs he
    rw [hq]
    refine Nat.one_lt_pow ?_ hr
    rintro rfl
    rw [pow_zero, one_mul] at he
    rw [← he] at hnd
    exact hnd (Nat.dvd_of_mod_eq_zero hd)
  unfold numNodesFactorHelper at h ⊢
  dsimp only at h ⊢
  split_ifs at h ⊢ with hp g4 g2 g3 hk
  · exact absurd rfl h
  · exact key2 4 (by omega) g4 h
  · exact key2 2 (by omega) g2 h
  · exact key2 3 (by omega) g3 h
  · refine ⟨by omega, by omega, ?_⟩
    unfold getLeftover
    rw [if_pos rfl]; omega
  · refine key _ factor_dvd h (factor_gt_one ?_)
    rcases Nat.lt_or_ge 1 N with h1 | h1
    · exact h1
    · have : N = 1 := by omega
      subst this
      exact absurd (Nat.dvd_one.1 factor_dvd) h

/-- `getNumNodes` (tree.h:235-242), for `N > 0`. -/
def getNumNodes (N : Nat) : Nat :=
  let k := numNodesFactorHelper N
  if h : 0 < N ∧ k ≠ N then
    1 + getNumNodes k + (if getLeftover N k = 0 then 0 else getNumNodes (getLeftover N k))
  else 1
termination_by N
decreasing_by
  · exact (numNodesFactorHelper_lt h.1 h.2).1
  · exact (numNodesFactorHelper_lt h.1 h.2).2.2

/-- The constructor of `plan_stock_fft` (heffte_backend_stock.h:249-255, 330-335, 401-406): allocate `getNumNodes(N)` nodes and
write the call graph there.  Writing more nodes than allocated is undefined behaviour; for `N = 0` the counting does not end. -/
def stockPlan (N : Nat) : Res (List Node) :=
  if N = 0 then .error .ub
  else if (initTree N).nodes.length ≤ getNumNodes N then .ok (initTree N).nodes
  else .error .ub

/-- The nodes that a transform visits: `composite_FFT` and `rader_FFT` find the children of the node `n` at `n + left` and
`n + right` (heffte_stock_algos.h:287-288, 338).  `none` when a link leaves the array.  The first argument bounds the depth. -/
def loadTree (nodes : List Node) : Nat → Nat → Option Tree
  | 0, _ => none
  | fuel + 1, n =>
    match nodes[n]? with
    | none => none
    | some nd =>
      match nd.type with
      | .composite =>
        match loadTree nodes fuel (n + nd.left), loadTree nodes fuel (n + nd.right) with
        | some l, some r => some (.composite nd.sz l r)
        | _, _ => none
      | .rader =>
        match loadTree nodes fuel (n + nd.left) with
        | some l => some (.rader nd.sz nd.root nd.rootInv l)
        | none => none
      | t => some (.leaf t nd.sz)

end Verif.Stock
