import Verif.StockComplex

/-!
# Properties C34 to C37: the stock FFT
-/

namespace Verif
open Stock Finset

/-! ## C34 -/

theorem stockFFT_eq {N : Nat} (hN : 0 < N) (fwd : Bool) (v : List ℂ) (hv : v.length = N) (out0 : Arr ℂ) (W : Nat → Arr ℂ) :
    stockFFT complexTw N fwd v out0 W =
      .ok ((List.range N).map ((initTree N).fft complexTw 0 fwd (fun n => v.getD n 0) 0 1 out0 0 1 W).1) := by
  unfold stockFFT
  rw [stockPlan_eq hN]
  simp only [bind, Except.bind]
  rw [if_neg (by simpa using hv), loadTree_root (initTree_proper N)]

theorem dft_of_isDft {N : Nat} {fwd : Bool} {x : Arr ℂ} {xo si : Nat} {y y' : Arr ℂ} {yo so : Nat}
    (h : IsDft (complexTw.om fwd 1 N) N x xo si y y' yo so) :
    (∀ k < N, y' (yo + k * so) = ∑ n ∈ range N, x (xo + n * si) * root fwd N (n * k)) ∧
    ∀ a, (∀ k < N, a ≠ yo + k * so) → y' a = y a := by
  refine ⟨fun k hk => ?_, h.2⟩
  rw [h.1 k hk]
  refine sum_congr rfl fun n _ => ?_
  rw [om_eq_root, root_pow, one_mul]

/-- **C34.**  The transform of the stock backend is the discrete Fourier transform: for every length for which the factor
search works, both directions, every input and whatever the work memory holds.  The search works for `N` unless the
square of a prime above 1213 divides `N` or divides `p - 1` for a prime factor `p > 100000` of `N`, and so on. -/
theorem C34_stock_fft_is_dft {N : Nat} (hN : 1 ≤ N) (hfac : ∀ q, q.Prime → 1213 < q → ¬ Reach N (q * q))
    (fwd : Bool) (v : List ℂ) (hv : v.length = N) (out0 : Arr ℂ) (W : Nat → Arr ℂ) :
    stockFFT complexTw N fwd v out0 W = .ok ((List.range N).map (dft fwd v)) := by
  rw [stockFFT_eq hN fwd v hv]
  congr 1
  refine List.map_congr_left fun k hk => ?_
  rw [List.mem_range] at hk
  have h := tree_dft complexTw_ok (initTree N) (good_initTree N hN hfac) 0 fwd (fun n => v.getD n 0) 0 1 out0 0 1 W (by omega)
  rw [tree_sz] at h
  have := (dft_of_isDft h).1 k hk
  simp only [zero_add, mul_one] at this
  rw [this]
  unfold dft
  rw [hv]

/-- **C34** without number theory in the hypotheses: every length below 1217² = 1481089. -/
theorem C34_small_lengths {N : Nat} (hN : 1 ≤ N) (hlt : N < 1481089)
    (fwd : Bool) (v : List ℂ) (hv : v.length = N) (out0 : Arr ℂ) (W : Nat → Arr ℂ) :
    stockFFT complexTw N fwd v out0 W = .ok ((List.range N).map (dft fwd v)) :=
  C34_stock_fft_is_dft hN (reach_small hN hlt) fwd v hv out0 W

/-- **C34** with strides: the input is read at `xo + n * si`, the output is written at `yo + k * so` and nowhere else. -/
theorem C34_strided {N : Nat} (hN : 1 ≤ N) (hfac : ∀ q, q.Prime → 1213 < q → ¬ Reach N (q * q)) (fwd : Bool) (n : Nat)
    (x : Arr ℂ) (xo si : Nat) (y : Arr ℂ) (yo so : Nat) (hso : 0 < so) (W : Nat → Arr ℂ) :
    let y' := ((initTree N).fft complexTw n fwd x xo si y yo so W).1
    (∀ k < N, y' (yo + k * so) = ∑ n ∈ range N, x (xo + n * si) * root fwd N (n * k)) ∧
    ∀ a, (∀ k < N, a ≠ yo + k * so) → y' a = y a := by
  have h := tree_dft complexTw_ok (initTree N) (good_initTree N hN hfac) n fwd x xo si y yo so W hso
  rw [tree_sz] at h
  exact dft_of_isDft h

/-- Rader's algorithm on the square of a prime. -/
theorem rader_square {N q a b : Nat} (hq : q.Prime) (hN : N = q * q) (sub : Tree) (ht : initTree N = .rader N a b sub)
    (ha : ¬ q ∣ a) (hb : ¬ q ∣ b) : ∃ v : List ℂ, v.length = N ∧ ∀ out0 W,
    stockFFT complexTw N true v out0 W ≠ .ok ((List.range N).map (dft true v)) := by
  have hq2 := hq.two_le
  have hqN : q < N := by rw [hN]; nlinarith
  refine ⟨(List.range N).map fun n => if n = q then 1 else 0, by rw [List.length_map, List.length_range], ?_⟩
  intro out0 W
  set v : List ℂ := (List.range N).map fun n => if n = q then 1 else 0 with hv
  have hlen : v.length = N := by rw [hv, List.length_map, List.length_range]
  have hget : ∀ n < N, v.getD n 0 = if n = q then 1 else 0 := by
    intro n hn
    rw [hv, List.getD_eq_getElem?_getD, List.getElem?_map, List.getElem?_range hn]
    rfl
  rw [stockFFT_eq (by omega) true v hlen]
  intro h
  simp only [Except.ok.injEq] at h
  have h0 := congrArg (fun l => l[0]?) h
  simp only [List.getElem?_map, List.getElem?_range (by omega : 0 < N), Option.map_some, Option.some.injEq] at h0
  have hdft : dft true v 0 = 1 := by
    unfold dft
    rw [hlen, sum_congr rfl (fun n hn => by rw [hget n (mem_range.1 hn), mul_zero]), sum_eq_single q]
    · simp [root]
    · intro n _ hne
      rw [if_neg hne, zero_mul]
    · intro hc
      exact absurd (mem_range.2 (by omega)) hc
  have hr : ∀ (c m : Nat), ¬ q ∣ c → ¬ q ∣ c ^ m % N := by
    intro c m hc hd
    have h2 : q ∣ c ^ m := (Nat.dvd_mod_iff (by rw [hN]; exact dvd_mul_right q q)).1 hd
    exact hc (hq.dvd_of_dvd_pow h2)
  have hst : ((initTree N).fft complexTw 0 true (fun n => v.getD n 0) 0 1 out0 0 1 W).1 0 = 0 := by
    rw [ht]
    have hz := rader_zero (tw := complexTw) (p := N) (a := a) (b := b) (n := 0) (by omega)
      (fun m hm => hr a m ha (by rw [hm]; exact dvd_zero _))
      (sub.fft complexTw (0 + 1)) true (fun n => v.getD n 0) 0 1 out0 0 1 (by omega) W
    refine Eq.trans hz ?_
    have hzero : ∀ n < N, n ≠ q → v.getD n 0 = 0 := fun n hn hne => by rw [hget n hn, if_neg hne]
    rw [hzero 0 (by omega) (by omega), zero_add]
    refine sum_eq_zero fun k _ => ?_
    rw [zero_add, mul_one]
    refine hzero _ (Nat.mod_lt _ (by omega)) fun he => ?_
    exact hr b k hb (by rw [he])
  rw [hst, hdft] at h0
  exact zero_ne_one h0

/-- The guard of C34 is needed: for `N = 1217 * 1217` the factor search reports a prime, Rader's algorithm is used and the
transform of a unit vector has 0 in place of 1 as its first entry. -/
theorem C34_false : ∃ v : List ℂ, v.length = 1481089 ∧ ∀ out0 W,
    stockFFT complexTw 1481089 true v out0 W ≠ .ok ((List.range 1481089).map (dft true v)) := by
  have ht := initTree_square
  rw [primeRoot_square] at ht
  have hb : modPow 2 (1481089 - 2) 1481089 % 1217 ≠ 0 := by decide +kernel
  exact rader_square (q := 1217) (by norm_num) (by norm_num) _ ht (by omega) fun hd => hb (Nat.mod_eq_zero_of_dvd hd)

/-- The hypotheses of C34 hold for a length with all kinds of nodes: 100003 is a prime, handled by Rader's algorithm with the
composite transform of length 100002 below it. -/
example (v : List ℂ) (hv : v.length = 100003) (out0 : Arr ℂ) (W : Nat → Arr ℂ) :
    stockFFT complexTw 100003 true v out0 W = .ok ((List.range 100003).map (dft true v)) :=
  C34_small_lengths (by omega) (by omega) true v hv out0 W

/-- Beyond the bound: a power of 2. -/
example (v : List ℂ) (hv : v.length = 2 ^ 25) (out0 : Arr ℂ) (W : Nat → Arr ℂ) :
    stockFFT complexTw (2 ^ 25) false v out0 W = .ok ((List.range (2 ^ 25)).map (dft false v)) := by
  refine C34_stock_fft_is_dft (by norm_num) ?_ false v hv out0 W
  have key : ∀ N M : Nat, Reach N M → N ∣ 2 ^ 25 → M ∣ 2 ^ 25 := by
    intro N M h hN
    cases h with
    | dvd h => exact h.trans hN
    | rader hp h1 h2 h3 =>
      have := (Nat.prime_dvd_prime_iff_eq hp Nat.prime_two).1 (hp.dvd_of_dvd_pow (h2.trans hN))
      omega
  intro q hq h1 hr
  have := (Nat.prime_dvd_prime_iff_eq hq Nat.prime_two).1 (hq.dvd_of_dvd_pow ((dvd_mul_right q q).trans (key _ _ hr dvd_rfl)))
  omega

/-! ## C35 -/

/-- **C35**, the part that holds.  A prime gives itself; a composite number gives a proper divisor unless it is 4 or
the square of a prime above 1213.  Missing: the squares of primes above 1213 (see `C35_false`); the number 4 is harmless,
the planner handles even numbers before it calls the search. -/
theorem C35_factor_partial {N : Nat} (hN : 2 ≤ N) :
    (N.Prime → factor N = N) ∧
    (¬ N.Prime → N ≠ 4 → (∀ q, q.Prime → 1213 < q → N ≠ q * q) → 1 < factor N ∧ factor N < N ∧ factor N ∣ N) := by
  refine ⟨fun h => (factor_self_iff hN).2 (Or.inl h), fun h h4 hq => ?_⟩
  have hne : factor N ≠ N := by
    intro he
    rcases (factor_self_iff hN).1 he with h1 | h1 | ⟨q, q1, q2, q3⟩
    · exact h h1
    · exact h4 h1
    · exact hq q q1 q2 q3
  have hle := Nat.le_of_dvd (by omega) (factor_dvd (f := N))
  exact ⟨factor_gt_one (by omega), by omega, factor_dvd⟩

/-- **C35** fails exactly for the squares of the primes above 1213 (and the harmless 4): the loop condition is `k*k < f`. -/
theorem C35_fails_iff {N : Nat} (hN : 2 ≤ N) (hc : ¬ N.Prime) :
    factor N = N ↔ N = 4 ∨ ∃ q, q.Prime ∧ 1213 < q ∧ N = q * q := by
  rw [factor_self_iff hN]
  exact or_iff_right hc

/-- The witness: 1217 * 1217 is reported as a prime, and the planner sets up Rader's algorithm for it. -/
theorem C35_false : ¬ Nat.Prime 1481089 ∧ factor 1481089 = 1481089 ∧ fptrFactorHelper 1481089 = (.rader, 1481088) := by
  have hf : factor 1481089 = 1481089 := (factor_self_iff (by omega)).2 (Or.inr (Or.inr ⟨1217, by norm_num, by omega, rfl⟩))
  refine ⟨by norm_num, hf, ?_⟩
  have h4 : powerOf 1481089 4 = false := by decide +kernel
  have h2 : powerOf 1481089 2 = false := by decide +kernel
  have h3 : powerOf 1481089 3 = false := by decide +kernel
  unfold fptrFactorHelper
  simp [h4, h2, h3, hf]

example : factor 1488391 = 1217 ∧ factor 1217 = 1217 ∧ factor 35 = 5 := by
  refine ⟨by decide +kernel, by decide +kernel, by decide +kernel⟩

/-! ## C36 -/

/-- **C36.**  For every `N >= 1` the call graph is written into exactly the allocated nodes, the first node has the size `N`, every
composite node has links to two later nodes inside of the allocation whose sizes multiply to its own, every Rader node
has a link to a node with the size less one. -/
theorem C36_call_graph_fits {N : Nat} (hN : 1 ≤ N) : ∃ nodes, stockPlan N = .ok nodes ∧ nodes.length = getNumNodes N ∧
    (∃ nd, nodes[0]? = some nd ∧ nd.sz = N) ∧
    ∀ (i : Nat) (nd : Node), nodes[i]? = some nd →
      (nd.type = .composite → ∃ l r, nodes[i + nd.left]? = some l ∧ nodes[i + nd.right]? = some r ∧
        0 < nd.left ∧ 0 < nd.right ∧ 1 < l.sz ∧ 1 < r.sz ∧ l.sz * r.sz = nd.sz) ∧
      (nd.type = .rader → ∃ l, nodes[i + nd.left]? = some l ∧ 0 < nd.left ∧ l.sz = nd.sz - 1) := by
  refine ⟨_, stockPlan_eq hN, ?_, ?_, ?_⟩
  · rw [nodes_length, getNumNodes_eq N hN]
  · obtain ⟨nd, h1, h2⟩ := head_sz (initTree N) [] []
    exact ⟨nd, by simpa using h1, by rw [h2, tree_sz]⟩
  · intro i nd h
    have hlt : i < (initTree N).count := by
      rw [← nodes_length]
      exact (List.getElem?_eq_some_iff.1 h).1
    have := links_ok (initTree N) (initTree_sized N) [] [] i nd (by simp) (by simpa using hlt) (by simpa using h)
    simp only [List.nil_append, List.append_nil] at this
    exact this

/-- **C36**, the traversal: following the links from the first node meets exactly the nodes of the call graph. -/
theorem C36_traversal {N : Nat} (hN : 1 ≤ N) : ∃ nodes, stockPlan N = .ok nodes ∧ loadTree nodes nodes.length 0 = some (initTree N) :=
  ⟨_, stockPlan_eq hN, loadTree_root (initTree_proper N)⟩

/-- Nine nodes for 1050 = 2 * 3 * 5² * 7. -/
example : getNumNodes 1050 = 9 ∧ ((initTree 1050).nodes.map fun nd => (nd.sz, nd.left, nd.right)) =
    [(1050, 1, 2), (2, 0, 0), (525, 1, 2), (3, 0, 0), (175, 1, 2), (5, 0, 0), (35, 1, 2), (5, 0, 0), (7, 0, 0)] := by
  decide +kernel

/-! ## C37 -/

/-- **C37.**  The root found for an odd prime generates all the non-zero residues. -/
theorem C37_primitive_root {p : Nat} (hp : p.Prime) (h2 : 2 < p) :
    1 < primeRoot p ∧ primeRoot p < p ∧ ∀ r, 0 < r → r < p → ∃ k, k < p - 1 ∧ primeRoot p ^ k % p = r := by
  obtain ⟨h1, h3, h4⟩ := primeRoot_spec hp h2
  refine ⟨h1, h3, ?_⟩
  have : Fact p.Prime := ⟨hp⟩
  have hn : RaderNode p (primeRoot p) (modPow (primeRoot p) (p - 2) p) := by
    refine ⟨hp, h2, h3, h4, ?_⟩
    rw [modPow_eq (by omega), ZMod.natCast_mod]
    push_cast
    rw [← pow_succ', show p - 2 + 1 = p - 1 by omega, ← h4]
    exact pow_orderOf_eq_one _
  intro r hr0 hr
  have hm : r ∈ Ico 1 p := mem_Ico.2 ⟨hr0, hr⟩
  rw [← (hn.image (Or.inl rfl)).2, mem_image] at hm
  obtain ⟨k, hk, he⟩ := hm
  exact ⟨k, mem_range.1 hk, he⟩

/-- **C37**, modular powers. -/
theorem C37_mod_pow {base pow mod : Nat} (h : 1 < mod) : modPow base pow mod = base ^ pow % mod := modPow_eq h

/-- **C37**, the stored inverse. -/
theorem C37_inverse {p : Nat} (hp : p.Prime) (h2 : 2 < p) : primeRoot p * modPow (primeRoot p) (p - 2) p % p = 1 := by
  obtain ⟨h1, h3, h4⟩ := primeRoot_spec hp h2
  have : Fact p.Prime := ⟨hp⟩
  have h1' : (1 : Nat) % p = 1 := Nat.mod_eq_of_lt (by omega)
  rw [← h1']
  rw [← ZMod.natCast_eq_natCast_iff', modPow_eq (by omega), Nat.cast_mul, ZMod.natCast_mod]
  push_cast
  rw [← pow_succ', show p - 2 + 1 = p - 1 by omega, ← h4]
  exact pow_orderOf_eq_one _

example : primeRoot 100003 = 2 ∧ primeRoot 41 = 6 ∧ modPow 6 39 41 = 7 ∧ 6 * 7 % 41 = 1 := by decide +kernel

/-! ## C51 -/

/-- **C51.**  A transform writes, besides its output, only work memory of nodes of its own call graph, each within the length
allocated for that node.  `W m a` is entry `a` of the work memory of node `m`. -/
theorem C51_workspaces {N : Nat} (hN : 1 ≤ N) (hfac : ∀ q, q.Prime → 1213 < q → ¬ Reach N (q * q)) (fwd : Bool)
    (x : Arr ℂ) (xo si : Nat) (y : Arr ℂ) (yo so : Nat) (hso : 0 < so) (W : Nat → Arr ℂ) :
    ∃ nodes, stockPlan N = .ok nodes ∧
      ∀ m a, ((initTree N).fft complexTw 0 fwd x xo si y yo so W).2 m a ≠ W m a → ∃ nd, nodes[m]? = some nd ∧ a < nd.sz := by
  refine ⟨_, stockPlan_eq hN, fun m a h => ?_⟩
  have ho : (initTree N).Owns 0 m a := by
    by_contra hc
    exact h (tree_frames complexTw_ok (initTree N) (good_initTree N hN hfac) 0 fwd x xo si y yo so W m a hso hc)
  exact (owns_in_bounds _ _ _ _ ho).2

/-- The work memory of the first node of length 6 is really used: it receives the transforms of the two halves. -/
example (y : Arr ℂ) (W : Nat → Arr ℂ) : ∃ nodes, stockPlan 6 = .ok nodes ∧
    ∀ m a, ((initTree 6).fft complexTw 0 true (fun _ => 1) 0 1 y 0 1 W).2 m a ≠ W m a → ∃ nd, nodes[m]? = some nd ∧ a < nd.sz :=
  C51_workspaces (by omega) (reach_small (by omega) (by omega)) true _ 0 1 y 0 1 (by omega) W

end Verif
