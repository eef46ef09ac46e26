import Verif.GpuTrig

/-!
# Properties of the GPU kernels (C56, C57, C58)

Whatever the order in which the threads of a launch run.  The specification is the one of C20 and C21: index triples and their positions
in the arrays, with `tuple` reals for each entry.
-/

namespace Verif
variable {γ : Type}

/-! ## Packing and unpacking -/

/-- **C56.** Packing the sub-box `a` of an array with box `s` on a device, in every order of the threads: the message holds the values of
`a` in their order and nothing else is written. -/
theorem C56_pack {s a : Box} (hs : IsOrder s.order) (ha : a.order = s.order) (hsub : ∀ p : A3 Int, p ∈ a → p ∈ s) (he : a.empty = false)
    {tuple : Nat} (ht : 0 < tuple) {limit : Int} (hlim : tuple * (s.points.card : Int) + 65536 ≤ limit) {src buf : List γ}
    (hsrc : tuple * s.points.card ≤ src.length) (hbuf : tuple * a.points.card ≤ buf.length) {order : List (Int × Int)}
    (horder : OrderOf order (gpuDirectMoves tuple true (directPlan s a) (overlapOffset s a) 0)) :
    ∃ msg, gpuDirect limit tuple (directPlan s a) order src buf = .ok msg ∧ msg.length = buf.length ∧
      (∀ p : A3 Int, p ∈ a → ∀ r < tuple, rd msg (tuple * a.offset p + r) = rd src (tuple * s.offset p + r)) ∧
      ∀ x, tuple * (a.points.card : Int) ≤ x → rd msg x = rd buf x := by
  have hao : IsOrder a.order := by rw [ha]; exact hs
  have hp : (directPlan s a).Below s.points.card := below_sub hs ha hsub he rfl rfl rfl
  obtain ⟨msg, m1, m2, m3, m4⟩ := copy_components ht (l := order) (moves := packMoves (directPlan s a) (overlapOffset s a) 0)
    (ns := s.points.card) (nd := a.points.card) (src := src) (dst := buf)
    (fun m => (OrderOf.mem horder).trans ((mem_gpuDirect ht (hp.pos 1) (hp.pos 2) m).1))
    (by
      intro u hu
      obtain ⟨q, hq, rfl⟩ := (mem_packSub hs ha u).1 hu
      exact ⟨offset_in hs le_rfl (hsub q hq), offset_in hao le_rfl hq⟩)
    (by
      intro u hu v hv h
      obtain ⟨q, hq, rfl⟩ := (mem_packSub hs ha u).1 hu
      obtain ⟨q', hq', rfl⟩ := (mem_packSub hs ha v).1 hv
      rw [Box.offset_inj hao hq hq' h])
    (by exact_mod_cast hsrc) (by exact_mod_cast hbuf)
  refine ⟨msg, ?_, m2, fun q hq r hr => m3 _ ((mem_packSub hs ha _).2 ⟨q, hq, rfl⟩) r hr, fun x hx => m4 x fun u hu r hr => ?_⟩
  · rw [gpuDirect, runCopy_ok (directValues_lt ht hp hlim), m1]
  · obtain ⟨q, hq, rfl⟩ := (mem_packSub hs ha u).1 hu
    have h := (offset_in hao le_rfl hq).2
    have h' : (tuple : Int) * (a.offset q + 1) ≤ tuple * (a.points.card : Int) := mul_le_mul_of_nonneg_left (by omega) (by omega)
    rw [mul_add, mul_one] at h'
    dsimp only
    omega

/-- **C56.** Unpacking a message into the sub-box `b` of an array with box `t` on a device, in every order of the threads. -/
theorem C56_unpack {t b : Box} (hs : IsOrder t.order) (hb : b.order = t.order) (hsub : ∀ p : A3 Int, p ∈ b → p ∈ t) (he : b.empty = false)
    {tuple : Nat} (ht : 0 < tuple) {limit : Int} (hlim : tuple * (t.points.card : Int) + 65536 ≤ limit) {msg dst : List γ}
    (hmsg : tuple * b.points.card ≤ msg.length) (hdst : tuple * t.points.card ≤ dst.length) {order : List (Int × Int)}
    (horder : OrderOf order (gpuDirectMoves tuple false (directPlan t b) (overlapOffset t b) 0)) :
    ∃ out, gpuDirect limit tuple (directPlan t b) order msg dst = .ok out ∧ out.length = dst.length ∧
      (∀ p : A3 Int, p ∈ b → ∀ r < tuple, rd out (tuple * t.offset p + r) = rd msg (tuple * b.offset p + r)) ∧
      ∀ x, (∀ p : A3 Int, p ∈ b → ∀ r < tuple, (tuple : Int) * t.offset p + r ≠ x) → rd out x = rd dst x := by
  have hbo : IsOrder b.order := by rw [hb]; exact hs
  have hp : (directPlan t b).Below t.points.card := below_sub hs hb hsub he rfl rfl rfl
  obtain ⟨out, m1, m2, m3, m4⟩ := copy_components ht (l := order) (moves := unpackDirect (directPlan t b) 0 (overlapOffset t b))
    (ns := b.points.card) (nd := t.points.card) (src := msg) (dst := dst)
    (fun m => (OrderOf.mem horder).trans ((mem_gpuDirect ht (hp.pos 1) (hp.pos 2) m).2))
    (by
      intro u hu
      obtain ⟨q, hq, rfl⟩ := (mem_unpackSub hs hb u).1 hu
      exact ⟨offset_in hbo le_rfl hq, offset_in hs le_rfl (hsub q hq)⟩)
    (by
      intro u hu v hv h
      obtain ⟨q, hq, rfl⟩ := (mem_unpackSub hs hb u).1 hu
      obtain ⟨q', hq', rfl⟩ := (mem_unpackSub hs hb v).1 hv
      rw [Box.offset_inj hs (hsub q hq) (hsub q' hq') h])
    (by exact_mod_cast hmsg) (by exact_mod_cast hdst)
  refine ⟨out, ?_, m2, fun q hq r hr => m3 _ ((mem_unpackSub hs hb _).2 ⟨q, hq, rfl⟩) r hr, fun x hx => m4 x fun u hu r hr => ?_⟩
  · rw [gpuDirect, runCopy_ok (directValues_lt ht hp hlim), m1]
  · obtain ⟨q, hq, rfl⟩ := (mem_unpackSub hs hb u).1 hu
    exact hx q hq r hr

theorem card_reorder (c : Box) (o : A3 (Fin 3)) : (⟨c.low, c.high, o⟩ : Box).points.card = c.points.card := rfl

/-- **C56.** Unpacking a message, packed in the storage order of `c`, into the same indexes of an array stored in the order of `t`, on a
device, in every order of the threads. -/
theorem C56_unpack_transpose {t c : Box} (hs : IsOrder t.order) (hc : IsOrder c.order) (hsub : ∀ p : A3 Int, p ∈ c → p ∈ t)
    (he : c.empty = false) {tuple : Nat} (ht : tuple = 1 ∨ tuple = 2) {limit : Int} (hlim : tuple * (t.points.card : Int) + 65536 ≤ limit)
    {msg dst : List γ} (hmsg : tuple * c.points.card ≤ msg.length) (hdst : tuple * t.points.card ≤ dst.length) {order : List (Int × Int)}
    (horder : OrderOf order (gpuTransposeMoves tuple (transposePlan t ⟨c.low, c.high, t.order⟩ c.order) 0
      (overlapOffset t ⟨c.low, c.high, t.order⟩))) :
    ∃ out, gpuTranspose limit tuple (transposePlan t ⟨c.low, c.high, t.order⟩ c.order) order msg dst = .ok out ∧ out.length = dst.length ∧
      (∀ p : A3 Int, p ∈ c → ∀ r < tuple, rd out (tuple * t.offset p + r) = rd msg (tuple * c.offset p + r)) ∧
      ∀ x, (∀ p : A3 Int, p ∈ c → ∀ r < tuple, (tuple : Int) * t.offset p + r ≠ x) → rd out x = rd dst x := by
  have ht' : 0 < tuple := by omega
  have hmap := hasMap_transposePlan (t := t) (ov := ⟨c.low, c.high, t.order⟩) hc hs
  have hp : (transposePlan t ⟨c.low, c.high, t.order⟩ c.order).Below t.points.card :=
    below_sub (a := ⟨c.low, c.high, t.order⟩) hs rfl hsub he rfl rfl rfl
  have one : 0 < 1 := Nat.one_pos
  obtain ⟨out, m1, m2, m3, m4⟩ := copy_components ht' (l := order)
    (moves := unpackTranspose 1 (transposePlan t ⟨c.low, c.high, t.order⟩ c.order) 0 (overlapOffset t ⟨c.low, c.high, t.order⟩))
    (ns := c.points.card) (nd := t.points.card) (src := msg) (dst := dst)
    (fun m => (OrderOf.mem horder).trans (mem_gpuTranspose ht hmap one (hp.pos 1) (hp.pos 2) m))
    (by
      intro u hu
      obtain ⟨q, hq, rfl⟩ := (mem_unpackSubT one hs hc u).1 hu
      exact ⟨offset_in hc le_rfl hq, offset_in hs le_rfl (hsub q hq)⟩)
    (by
      intro u hu v hv h
      obtain ⟨q, hq, rfl⟩ := (mem_unpackSubT one hs hc u).1 hu
      obtain ⟨q', hq', rfl⟩ := (mem_unpackSubT one hs hc v).1 hv
      rw [Box.offset_inj hs (hsub q hq) (hsub q' hq') h])
    (by exact_mod_cast hmsg) (by exact_mod_cast hdst)
  refine ⟨out, ?_, m2, fun q hq r hr => m3 _ ((mem_unpackSubT one hs hc _).2 ⟨q, hq, rfl⟩) r hr, fun x hx => m4 x fun u hu r hr => ?_⟩
  · rw [gpuTranspose, runCopy_ok (transposeValues_lt ht' hp hmap hlim ?_), m1]
    intro i j k hi hj hk
    rw [bufIndex_eq (ov := ⟨c.low, c.high, t.order⟩) hc hs rfl]
    have hin : (⟨c.low, c.high, t.order⟩ : Box).at i j k ∈ c :=
      (Box.mem_at (b := ⟨c.low, c.high, t.order⟩) hs).2 ⟨i, j, k, hi, hj, hk, rfl⟩
    have h1 := (offset_in hc le_rfl hin).2
    have h2 : c.points.card ≤ t.points.card := Finset.card_le_card fun q hq => Box.mem_points.2 (hsub q (Box.mem_points.1 hq))
    refine lt_of_lt_of_le h1 ?_
    exact_mod_cast h2
  · obtain ⟨q, hq, rfl⟩ := (mem_unpackSubT one hs hc u).1 hu
    exact hx q hq r hr

/-- A sub-box of 2 x 1 x 1 complex entries of a 3 x 2 x 2 array packed by a launch of one block of 1024 threads whose statements run
backwards, and a message of 2 x 3 x 1 entries in the order (0, 1, 2) unpacked into an array in the order (1, 0, 2). -/
example :
    let s : Box := ⟨⟨0, 0, 0⟩, ⟨2, 1, 1⟩, ⟨0, 1, 2⟩⟩
    let a : Box := ⟨⟨1, 0, 1⟩, ⟨2, 0, 1⟩, ⟨0, 1, 2⟩⟩
    let c : Box := ⟨⟨0, 0, 0⟩, ⟨1, 2, 0⟩, ⟨0, 1, 2⟩⟩
    let t : Box := ⟨⟨0, 0, 0⟩, ⟨1, 2, 0⟩, ⟨1, 0, 2⟩⟩
    IsOrder s.order ∧ a.empty = false ∧ a.count = 2 ∧ (2 : Int) * s.count + 65536 ≤ 2 ^ 31 ∧
    gpuDirect (2 ^ 31) 2 (directPlan s a) (gpuDirectMoves 2 true (directPlan s a) (overlapOffset s a) 0).reverse (List.range 24)
      (List.replicate 5 50) = .ok [14, 15, 16, 17, 50] ∧
    gpuTranspose (2 ^ 31) 2 (transposePlan t ⟨c.low, c.high, t.order⟩ c.order) (gpuTransposeMoves 2 (transposePlan t ⟨c.low, c.high, t.order⟩
      c.order) 0 (overlapOffset t ⟨c.low, c.high, t.order⟩)).reverse (List.range 12) (List.replicate 13 50) =
      .ok [0, 1, 4, 5, 8, 9, 2, 3, 6, 7, 10, 11, 50] := by
  refine ⟨?_, ?_, ?_, ?_, ?_, ?_⟩ <;> decide +kernel

/-- The kernels use integers up to the number of reals of the message: with more, the behaviour is not defined. -/
theorem C56_overflow {s a : Box} (hs : IsOrder a.order) (he : a.empty = false) {tuple : Nat} {limit : Int}
    (h : limit ≤ tuple * ((a.points.card : Int) - a.osize 0)) (order : List (Int × Int)) (src buf : List γ) :
    gpuDirect limit tuple (directPlan s a) order src buf = .error .ub := by
  have hp := osize_pos he
  have hb : 0 < packBlocks (directPlan s a) := packBlocks_pos (p := directPlan s a) (hp 1) (hp 2)
  have h12 : 0 < (directPlan s a).size 1 * (directPlan s a).size 2 := mul_pos (hp 1) (hp 2)
  obtain ⟨b, hb', hq⟩ := (mem_loopBy_all (n := (directPlan s a).size 1 * (directPlan s a).size 2)
    (q := (directPlan s a).size 1 * (directPlan s a).size 2 - 1) hb).2 ⟨by omega, by omega⟩
  refine if_neg fun hall => ?_
  rw [List.all_eq_true] at hall
  have hv := of_decide_eq_true (hall (((directPlan s a).size 1 * (directPlan s a).size 2 - 1) * (directPlan s a).size 0 * tuple) (by
    refine mem_allThreads.2 ⟨b, hb', 0, by decide, ?_⟩
    unfold directValues
    refine List.mem_cons_of_mem _ (List.mem_flatMap.2 ⟨_, hq, ?_⟩)
    simp))
  have hc := Box.count_eq_card a
  rw [Box.count_osize hs he] at hc
  rw [← hc] at h
  have e : ((directPlan s a).size 1 * (directPlan s a).size 2 - 1) * (directPlan s a).size 0 * (tuple : Int) =
      tuple * (a.osize 2 * a.osize 1 * a.osize 0 - a.osize 0) := by
    simp only [directPlan, A3.get_zero, A3.get_one, A3.get_two]; ring
  rw [e] at hv
  omega

/-- **Finding.** With the default index type `int`, a complex array of 1025 x 1024 x 1024 entries is not packed. -/
theorem C56_false (order : List (Int × Int)) (src buf : List γ) :
    let s : Box := ⟨⟨0, 0, 0⟩, ⟨1024, 1023, 1023⟩, ⟨0, 1, 2⟩⟩
    gpuDirect (2 ^ 31) 2 (directPlan s s) order src buf = .error .ub := by
  intro s
  refine C56_overflow (by decide) (by decide) ?_ order src buf
  rw [← Box.count_eq_card]
  decide

/-- **C56** for oneAPI, where the index computations have 64 bits: packing. -/
theorem C56_one_pack {s a : Box} (hs : IsOrder s.order) (ha : a.order = s.order) (hsub : ∀ p : A3 Int, p ∈ a → p ∈ s)
    {src buf : List γ} (hsrc : s.points.card ≤ src.length) (hbuf : a.points.card ≤ buf.length) {order : List (Int × Int)}
    (horder : OrderOf order (oneDirectMoves true (directPlan s a) (overlapOffset s a) 0)) :
    ∃ msg, copyMoves order src buf = .ok msg ∧ msg.length = buf.length ∧
      (∀ p : A3 Int, p ∈ a → rd msg (a.offset p) = rd src (s.offset p)) ∧ ∀ x, (a.points.card : Int) ≤ x → rd msg x = rd buf x := by
  have hao : IsOrder a.order := by rw [ha]; exact hs
  have hl : ∀ m, m ∈ order ↔ ∃ p : A3 Int, p ∈ a ∧ m = (a.offset p, s.offset p) := fun m =>
    ((OrderOf.mem horder).trans (mem_oneDirect m).1).trans (mem_packSub hs ha m)
  obtain ⟨msg, h1, h2, h3, h4⟩ := copyMoves_ok (moves := order) (src := src) (dst := buf) (by
    intro m hm
    obtain ⟨p, hp, rfl⟩ := (hl m).1 hm
    exact ⟨offset_in hs hsrc (hsub p hp), offset_in hao hbuf hp⟩) (by
    intro m hm u hu h
    obtain ⟨p, hp, rfl⟩ := (hl m).1 hm
    obtain ⟨q, hq, rfl⟩ := (hl u).1 hu
    rw [Box.offset_inj hao hp hq h])
  refine ⟨msg, h1, h2, fun p hp => h3 _ ((hl _).2 ⟨p, hp, rfl⟩), fun x hx => h4 x fun m hm => ?_⟩
  obtain ⟨p, hp, rfl⟩ := (hl m).1 hm
  have := (offset_in hao le_rfl hp).2
  dsimp only; omega

/-- **C56** for oneAPI: unpacking, with the storage order of the message or another one. -/
theorem C56_one_unpack {t c : Box} (hs : IsOrder t.order) (hc : IsOrder c.order) (hsub : ∀ p : A3 Int, p ∈ c → p ∈ t)
    {msg dst : List γ} (hmsg : c.points.card ≤ msg.length) (hdst : t.points.card ≤ dst.length) :
    ∃ moves, oneTransposeMoves (transposePlan t ⟨c.low, c.high, t.order⟩ c.order) 0 (overlapOffset t ⟨c.low, c.high, t.order⟩) = .ok moves ∧
      ∀ order, (OrderOf order moves ∨ c.order = t.order ∧ OrderOf order (oneDirectMoves false (directPlan t c) (overlapOffset t c) 0)) →
        ∃ out, copyMoves order msg dst = .ok out ∧ out.length = dst.length ∧
          (∀ p : A3 Int, p ∈ c → rd out (t.offset p) = rd msg (c.offset p)) ∧
          ∀ x, (∀ p : A3 Int, p ∈ c → t.offset p ≠ x) → rd out x = rd dst x := by
  have one : 0 < 1 := Nat.one_pos
  obtain ⟨moves, h1, h2⟩ := oneTranspose_ok (buf := 0) (data := overlapOffset t ⟨c.low, c.high, t.order⟩)
    (hasMap_transposePlan (t := t) (ov := ⟨c.low, c.high, t.order⟩) hc hs) one
  refine ⟨moves, h1, fun order ho => ?_⟩
  have hl : ∀ m, m ∈ order ↔ ∃ p : A3 Int, p ∈ c ∧ m = (t.offset p, c.offset p) := by
    intro m
    rcases ho with ho | ⟨hct, ho⟩
    · exact ((OrderOf.mem ho).trans (h2 m)).trans (mem_unpackSubT one hs hc m)
    · exact ((OrderOf.mem ho).trans (mem_oneDirect m).2).trans (mem_unpackSub hs hct m)
  obtain ⟨out, g1, g2, g3, g4⟩ := copyMoves_ok (moves := order) (src := msg) (dst := dst) (by
    intro m hm
    obtain ⟨p, hp, rfl⟩ := (hl m).1 hm
    exact ⟨offset_in hc hmsg hp, offset_in hs hdst (hsub p hp)⟩) (by
    intro m hm u hu h
    obtain ⟨p, hp, rfl⟩ := (hl m).1 hm
    obtain ⟨q, hq, rfl⟩ := (hl u).1 hu
    rw [Box.offset_inj hs (hsub p hp) (hsub q hq) h])
  refine ⟨out, g1, g2, fun p hp => g3 _ ((hl _).2 ⟨p, hp, rfl⟩), fun x hx => g4 x fun m hm => ?_⟩
  obtain ⟨p, hp, rfl⟩ := (hl m).1 hm
  exact hx p hp

/-! ## Conversion and scaling -/

section
variable {β : Type}

/-- **C57.** The conversion between real and complex arrays on a device, in every order of the threads, for `0 < n < 2 ^ 31` entries whose
number of reals is below the largest index. -/
theorem C57_convert [Zero β] {toComplex : Bool} {n limit : Int} (h0 : 0 < n) (hn : n < 2 ^ 31) (h2 : 2 * n ≤ limit) (h3 : n + 2 ^ 26 ≤ limit)
    {src dst : List β} (hs : (if toComplex then n else 2 * n) ≤ src.length) (hd : (if toComplex then 2 * n else n) ≤ dst.length)
    {order : List (Int × Option Int)} (horder : OrderOf order (convertAll toComplex n)) :
    ∃ out, gpuConvert limit toComplex n order src dst = .ok out ∧ out.length = dst.length ∧
      (∀ i : Int, 0 ≤ i → i < n → if toComplex then rd out (2 * i) = rd src i ∧ rd out (2 * i + 1) = some 0 else rd out i = rd src (2 * i)) ∧
      ∀ x, (if toComplex then 2 * n else n) ≤ x → rd out x = rd dst x := by
  have hg : ¬ gridBlocks n ≤ 0 := by
    rw [gridBlocks_nonpos, Int.emod_eq_of_lt h0.le (by omega)]
    omega
  have hb : 0 < (gridBlocks n).toNat := by omega
  have ht : 0 < maxThreads := by decide
  have hle := gridBlocks_le n
  have hv := convertValues_lt (toComplex := toComplex) (n := n) (limit := limit) hb ht h2 (by
    have : (maxThreads * (gridBlocks n).toNat : Nat) ≤ 2 ^ 26 := by
      have : (gridBlocks n).toNat ≤ 65536 := by omega
      unfold maxThreads
      omega
    omega)
  obtain ⟨out, o1, o2, o3, o4⟩ := convert_writes (fun w => (OrderOf.mem horder).trans (mem_convert hb ht w)) hs hd
  refine ⟨out, ?_, o2, o3, o4⟩
  rw [gpuConvert, if_neg hg, if_pos, o1]
  rw [List.all_eq_true]
  exact fun v hv' => decide_eq_true (hv v hv')

/-- With the index type `int` the conversion of more than `2 ^ 30` entries has undefined behaviour, in both directions: C57 is sharp. -/
theorem C57_convert_overflow [Zero β] (toComplex : Bool) {n : Int} (h0 : 2 ^ 30 < n) (hn : n < 2 ^ 31) (order : List (Int × Option Int))
    (src dst : List β) : gpuConvert (2 ^ 31) toComplex n order src dst = .error .ub := by
  have hg : ¬ gridBlocks n ≤ 0 := by
    rw [gridBlocks_nonpos, Int.emod_eq_of_lt (by omega) (by omega)]
    omega
  have hb : 0 < (gridBlocks n).toNat := by omega
  rw [gpuConvert, if_neg hg]
  refine if_neg fun hall => ?_
  rw [List.all_eq_true] at hall
  obtain ⟨b, hb', t, ht', hi⟩ := (mem_grid (threads := maxThreads) (n := n) (q := n - 1) hb (by decide)).2 ⟨by omega, by omega⟩
  have hv := of_decide_eq_true (hall (if toComplex then 2 * (n - 1) + 1 else 2 * (n - 1)) (by
    refine mem_allThreads.2 ⟨b, hb', t, ht', ?_⟩
    unfold convertValues
    exact List.mem_flatMap.2 ⟨_, hi, by simp⟩))
  split at hv <;> omega

/-- **Finding.** With 64-bit indexes the number of blocks is still computed with an `int`; for `2 ^ 31 ≤ n ≤ 2 ^ 32 - 1024` entries nothing
is converted and no error is reported. -/
theorem C57_convert_lost [Zero β] (limit : Int) (toComplex : Bool) {n : Int} (h0 : 2 ^ 31 ≤ n) (hn : n ≤ 2 ^ 32 - 1024)
    (order : List (Int × Option Int)) (src dst : List β) : gpuConvert limit toComplex n order src dst = .ok dst := by
  rw [gpuConvert, if_pos]
  rw [gridBlocks_nonpos, Int.emod_eq_of_lt (by omega) (by omega)]
  omega

/-- **C57** for oneAPI, for all sizes. -/
theorem C57_one_convert [Zero β] {toComplex : Bool} {n : Int}
    {src dst : List β} (hs : (if toComplex then n else 2 * n) ≤ src.length) (hd : (if toComplex then 2 * n else n) ≤ dst.length)
    {order : List (Int × Option Int)} (horder : OrderOf order (oneConvertAll toComplex n)) :
    ∃ out, writeAll (order.map fun w => (w.1, valueOf src w.2)) dst = .ok out ∧ out.length = dst.length ∧
      (∀ i : Int, 0 ≤ i → i < n → if toComplex then rd out (2 * i) = rd src i ∧ rd out (2 * i + 1) = some 0 else rd out i = rd src (2 * i)) ∧
      ∀ x, (if toComplex then 2 * n else n) ≤ x → rd out x = rd dst x :=
  convert_writes (fun w => (OrderOf.mem horder).trans (by simp only [oneConvertAll, List.mem_flatMap, mem_loop])) hs hd

/-- **C57.** The scaling of `n` numbers on a device, in every order of the threads: all of them are multiplied by the factor once and
nothing else changes, or the launch fails, which CUDA reports with an exception and ROCm does not report. -/
theorem C57_scale [Mul β] (checks : Bool) {n : Int} (hn : 0 ≤ n) (f : β) {mem : List β} (hm : n ≤ mem.length) {order : List Int}
    (horder : OrderOf order (scaleAll n)) :
    if 0 < n ∧ (n % 2 ^ 32 = 0 ∨ 2 ^ 31 ≤ n % 2 ^ 32 ∧ n % 2 ^ 32 ≤ 2 ^ 32 - 1024) then
      gpuScale checks n f order mem = if checks then .error .runtime else .ok mem
    else ∃ out, gpuScale checks n f order mem = .ok out ∧ out.length = mem.length ∧
      (∀ i : Int, 0 ≤ i → i < n → rd out i = (rd mem i).map (· * f)) ∧ ∀ i, n ≤ i → rd out i = rd mem i := by
  by_cases h0 : n = 0
  · subst h0
    rw [if_neg (by omega)]
    exact ⟨mem, by rw [gpuScale, if_pos rfl], rfl, fun i h h' => by omega, fun _ _ => rfl⟩
  rw [gpuScale, if_neg h0]
  simp only [← gridBlocks_nonpos]
  by_cases hg : gridBlocks n ≤ 0
  · rw [if_pos ⟨by omega, hg⟩, if_pos hg]
  · rw [if_neg (fun h => hg h.2), if_neg hg]
    have hb : 0 < (gridBlocks n).toNat := by omega
    have ht : 0 < maxThreads := by decide
    have hmem : ∀ i, i ∈ order ↔ 0 ≤ i ∧ i < n := fun i => by
      rw [OrderOf.mem horder, scaleAll, mem_allThreads]
      exact mem_grid hb ht
    obtain ⟨out, o1, o2, o3, o4⟩ := scaleAt_ok f order mem (horder.symm.nodup (nodup_grid hb ht n)) fun i hi => by
      have := (hmem i).1 hi
      omega
    exact ⟨out, o1, o2, fun i h h' => o3 i ((hmem i).2 ⟨h, h'⟩), fun i hi => o4 i fun h => by have := (hmem i).1 h; omega⟩

/-- **C57** for the complex arrays of a call, of less than `2 ^ 30` entries: each component is scaled. -/
theorem C57_scale_complex [Mul β] (checks : Bool) {n : Int} (hn : 0 ≤ n) (h : n < 2 ^ 30) (f : β) {mem : List β} (hm : 2 * n ≤ mem.length)
    {order : List Int} (horder : OrderOf order (scaleAll (complexEntries n))) :
    ∃ out, gpuScale checks (complexEntries n) f order mem = .ok out ∧ out.length = mem.length ∧
      (∀ i : Int, 0 ≤ i → i < n → rd out (2 * i) = (rd mem (2 * i)).map (· * f) ∧ rd out (2 * i + 1) = (rd mem (2 * i + 1)).map (· * f)) ∧
      ∀ i, 2 * n ≤ i → rd out i = rd mem i := by
  have key := C57_scale checks (n := complexEntries n) (by unfold complexEntries; omega) f (mem := mem) hm horder
  rw [if_neg] at key
  · obtain ⟨out, o1, o2, o3, o4⟩ := key
    unfold complexEntries at o3 o4
    exact ⟨out, o1, o2, fun i h0 h1 => ⟨o3 _ (by omega) (by omega), o3 _ (by omega) (by omega)⟩, o4⟩
  · unfold complexEntries
    rw [Int.emod_eq_of_lt (by omega) (by omega)]
    omega

/-- **Finding.** A complex array of `2 ^ 30` entries, all the arrays of the batch together, or more, up to `2 ^ 31 - 512`, is not scaled: with
CUDA the call throws, with ROCm it returns the result without the scaling. -/
theorem C57_false [Mul β] {n : Int} (h0 : 2 ^ 30 ≤ n) (h : n ≤ 2 ^ 31 - 512) (f : β) (mem : List β) (order : List Int) :
    gpuScale true (complexEntries n) f order mem = .error .runtime ∧ gpuScale false (complexEntries n) f order mem = .ok mem := by
  have hg : gridBlocks (complexEntries n) ≤ 0 := by
    rw [gridBlocks_nonpos]
    unfold complexEntries
    rw [Int.emod_eq_of_lt (by omega) (by omega)]
    omega
  have hz : complexEntries n ≠ 0 := by unfold complexEntries; omega
  simp [gpuScale, hz, hg]

/-- **C57** for oneAPI, for all sizes. -/
theorem C57_one_scale [Mul β] {n : Int} (f : β) {mem : List β} (hm : n ≤ mem.length) {order : List Int} (horder : OrderOf order (oneScaleAll n)) :
    ∃ out, scaleAt f order mem = .ok out ∧ out.length = mem.length ∧
      (∀ i : Int, 0 ≤ i → i < n → rd out i = (rd mem i).map (· * f)) ∧ ∀ i, (i < 0 ∨ n ≤ i) → rd out i = rd mem i := by
  have hmem : ∀ i, i ∈ order ↔ 0 ≤ i ∧ i < n := fun i => by rw [OrderOf.mem horder, oneScaleAll, mem_loop]
  have hnd : (oneScaleAll n).Nodup := List.Nodup.map (fun a b h => by simpa using h) List.nodup_range
  obtain ⟨out, o1, o2, o3, o4⟩ := scaleAt_ok f order mem (horder.symm.nodup hnd) fun i hi => by
    have := (hmem i).1 hi
    omega
  exact ⟨out, o1, o2, fun i h h' => o3 i ((hmem i).2 ⟨h, h'⟩), fun i hi => o4 i fun h => by have := (hmem i).1 h; omega⟩

/-- **C57.** With MAGMA the number of reals that are scaled is the number of reals of the arrays below the limits of `int`. -/
theorem C57_magma {n : Int} (h0 : 0 ≤ n) :
    (n < 2 ^ 30 → magmaCount true n = .ok (2 * n)) ∧ (n < 2 ^ 31 → magmaCount false n = .ok n) := by
  have hb : n < 2 ^ 31 → toInt32 n = n := fun h => by
    unfold toInt32
    rw [Int.bmod_def, Int.emod_eq_of_lt h0 (by norm_num; omega)]
    norm_num
    omega
  constructor
  · intro h
    simp only [magmaCount, hb (by omega), if_true]
    rw [if_pos (by omega)]
  · intro h
    simp only [magmaCount, hb h]
    rfl

/-- **Finding.** With MAGMA, `2 ^ 30` complex entries overflow and `2 ^ 32` entries are not scaled. -/
theorem C57_magma_false : magmaCount true (2 ^ 30) = .error .ub ∧ magmaCount true (2 ^ 32) = .ok 0 ∧ magmaCount false (2 ^ 32) = .ok 0 := by
  refine ⟨?_, ?_, ?_⟩ <;> decide

/-- Two real numbers made complex, and three numbers doubled, by one block of 1024 threads whose statements run backwards. -/
example :
    gpuConvert (2 ^ 31) true 2 (convertAll true 2).reverse [5, 6, 7] [1, 1, 1, 1, 1] = .ok [5, 0, 6, 0, 1] ∧
    gpuConvert (2 ^ 31) false 2 (convertAll false 2).reverse [5, 0, 6, 0, 7] [1, 1, 1] = .ok [5, 6, 1] ∧
    gpuScale true 3 2 (scaleAll 3).reverse [5, 6, 7, 8] = .ok [10, 12, 14, 8] := by
  refine ⟨?_, ?_, ?_⟩ <;> decide +kernel

end

/-! ## Sine and cosine transforms -/

/-- **C58.** The sine and cosine transforms on a device: for every order in which the threads of the launches run, every library of
real-to-complex transforms that is right and every alignment of the workspace, each line is transformed and nothing else changes, when the
workspace has the size that the executor asks for. -/
theorem C58_trig (z : Trig) {sched : Schedule ℝ} (hsched : ∀ s c l, OrderOf (sched s c l) l) {lib : TrigLib ℝ} {N L : Nat} (hN : z.least ≤ N)
    (hL : 0 < L) {work : Int} (hw : 0 ≤ work) (aligned : Bool) (addr : Int) (hlib : LibGood lib (z.gain N) L work aligned addr) (fwd : Bool)
    {ws data : List ℝ} (hws : TrigDims.workspace ⟨z, N, L, aligned, addr⟩ work ≤ ws.length) {base : Int} (hb : 0 ≤ base)
    (hd : base + (L * N : Nat) ≤ data.length) {X : Nat → Nat → ℝ} (hX : ∀ c < L, ∀ k < N, rd data (base + (c * N + k : Nat)) = some (X c k)) :
    ∃ out, gpuR2R trigAll sched lib fwd ⟨z, N, L, aligned, addr⟩ base ws data = .ok out ∧ out.length = data.length ∧
      (∀ c < L, ∀ k < N, rd out (base + (c * N + k : Nat)) = some (trigOf z fwd N (X c) k)) ∧
      ∀ a, (a < base ∨ base + (L * N : Nat) ≤ a) → rd out a = rd data a :=
  gpuR2R_lines (processors_cuda z) hsched rfl rfl rfl hN hL hw hlib fwd hws hb hd hX

/-- **C58** with oneAPI, which has no cosine transform of the first kind. -/
theorem C58_trig_one {z : Trig} (hz : z ≠ .cos1) {sched : Schedule ℝ} (hsched : ∀ s c l, OrderOf (sched s c l) l) {lib : TrigLib ℝ} {N L : Nat}
    (hN : z.least ≤ N) (hL : 0 < L) {work : Int} (hw : 0 ≤ work) (aligned : Bool) (addr : Int) (hlib : LibGood lib (z.gain N) L work aligned addr)
    (fwd : Bool) {ws data : List ℝ} (hws : TrigDims.workspace ⟨z, N, L, aligned, addr⟩ work ≤ ws.length) {base : Int} (hb : 0 ≤ base)
    (hd : base + (L * N : Nat) ≤ data.length) {X : Nat → Nat → ℝ} (hX : ∀ c < L, ∀ k < N, rd data (base + (c * N + k : Nat)) = some (X c k)) :
    ∃ out, gpuR2R oneTrigAll sched lib fwd ⟨z, N, L, aligned, addr⟩ base ws data = .ok out ∧ out.length = data.length ∧
      (∀ c < L, ∀ k < N, rd out (base + (c * N + k : Nat)) = some (trigOf z fwd N (X c) k)) ∧
      ∀ a, (a < base ∨ base + (L * N : Nat) ≤ a) → rd out a = rd data a :=
  gpuR2R_lines (processors_one hz) hsched rfl rfl rfl hN hL hw hlib fwd hws hb hd hX

/-- A library that is right, for the examples. -/
noncomputable def refLib (g L : Nat) : TrigLib ℝ where
  forward := fun temp ctemp ws => (List.range ws.length).map fun a : Nat =>
    if 0 ≤ (a : Int) - ctemp ∧ (a : Int) - ctemp < 2 * (((g / 2 + 1 : Nat) : Int) * L) then
      flat (fun q => r2c ((List.range g).map fun m => (rd ws (temp + (q / (g / 2 + 1) * g + m : Nat))).getD 0) (q % (g / 2 + 1))) (a - ctemp)
    else (rd ws a).getD 0
  backward := fun ctemp temp ws => (List.range ws.length).map fun a : Nat =>
    if 0 ≤ (a : Int) - temp ∧ (a : Int) - temp < (g : Int) * L then
      c2r g ((List.range (g / 2 + 1)).map fun k => ⟨(rd ws (ctemp + 2 * (((a : Int) - temp).toNat / g * (g / 2 + 1) + k : Nat))).getD 0,
        (rd ws (ctemp + 2 * (((a : Int) - temp).toNat / g * (g / 2 + 1) + k : Nat) + 1)).getD 0⟩) (((a : Int) - temp).toNat % g)
    else (rd ws a).getD 0

theorem rd_tabulate {n : Nat} (f : Nat → ℝ) {a : Int} (h0 : 0 ≤ a) (h1 : a < n) : rd ((List.range n).map f) a = some (f a.toNat) := by
  rw [rd, if_pos h0, List.getElem?_map, List.getElem?_range (by omega)]
  rfl

theorem refLib_good {g L : Nat} (hg : 0 < g) {work : Int} (hw : 0 ≤ work) (aligned : Bool) (addr : Int) : LibGood (refLib g L) g L work aligned addr := by
  have cell : ∀ {c k D : Nat}, c < L → k < D → c * D + k < D * L := by
    intro c k D hc hk
    calc c * D + k < c * D + D := by omega
      _ = (c + 1) * D := by ring
      _ ≤ L * D := Nat.mul_le_mul_right _ hc
      _ = D * L := Nat.mul_comm _ _
  constructor
  · intro temp ctemp ws x _ ht hc hlen hx
    refine ⟨by simp [refLib], fun c hcL k hk => ?_⟩
    have hb := cell hcL hk
    have hb' : ((c * (g / 2 + 1) + k : Nat) : Int) < ((g / 2 + 1 : Nat) : Int) * L := by exact_mod_cast hb
    have h0 : 0 ≤ (g : Int) * L := by positivity
    have hd : (c * (g / 2 + 1) + k) / (g / 2 + 1) = c := by
      rw [Nat.mul_comm, Nat.mul_add_div (by omega), Nat.div_eq_of_lt hk, Nat.add_zero]
    have hm : (c * (g / 2 + 1) + k) % (g / 2 + 1) = k := by rw [Nat.mul_comm, Nat.mul_add_mod, Nat.mod_eq_of_lt hk]
    have hv : r2c ((List.range g).map fun m => (rd ws (temp + (c * g + m : Nat))).getD 0) k = r2c ((List.range g).map (x c)) k := by
      congr 1
      refine List.map_congr_left fun m hm => ?_
      rw [hx c hcL m (List.mem_range.1 hm)]; rfl
    constructor
    · simp only [refLib]
      rw [rd_tabulate _ (by omega) (by omega), Int.toNat_of_nonneg (by omega), add_sub_cancel_left, if_pos (by omega), flat_even, hd, hm, hv]
    · simp only [refLib]
      rw [rd_tabulate _ (by omega) (by omega), Int.toNat_of_nonneg (by omega), add_assoc, add_sub_cancel_left, if_pos (by omega), flat_odd, hd, hm, hv]
  · intro ctemp temp ws y _ ht hc hlen hy
    refine ⟨by simp [refLib], fun c hcL m hm => ?_⟩
    have hb := cell hcL hm
    have hb' : ((c * g + m : Nat) : Int) < (g : Int) * L := by exact_mod_cast hb
    have h0 : 0 ≤ ((g / 2 + 1 : Nat) : Int) * L := by positivity
    have hd : (c * g + m) / g = c := by rw [Nat.mul_comm, Nat.mul_add_div hg, Nat.div_eq_of_lt hm, Nat.add_zero]
    have hmm : (c * g + m) % g = m := by rw [Nat.mul_comm, Nat.mul_add_mod, Nat.mod_eq_of_lt hm]
    simp only [refLib]
    rw [rd_tabulate _ (by omega) (by omega), Int.toNat_of_nonneg (by omega), add_sub_cancel_left, if_pos (by omega), Int.toNat_natCast, hd, hmm]
    congr 2
    refine List.map_congr_left fun k hk => ?_
    have := hy c hcL k (List.mem_range.1 hk)
    rw [this.1, this.2]
    rfl

/-- The forward cosine transform of the two lines (1, 2) and (3, 4), with the workspace at an odd address and the statements of all the
launches backwards. -/
example :
    ∃ out, gpuR2R trigAll (fun _ _ l => l.reverse) (refLib 8 2) true ⟨.cos, 2, 2, true, 1⟩ 0 (List.replicate 38 7) [1, 2, 3, 4, 5] = .ok out ∧
      rd out 0 = some 6 ∧ rd out 2 = some 14 ∧ rd out 4 = some 5 := by
  obtain ⟨out, h1, -, h3, h4⟩ := C58_trig .cos (sched := fun _ _ l => l.reverse) (fun _ _ l => List.reverse_perm l) (lib := refLib 8 2) (N := 2) (L := 2)
    (by decide) (by decide) (work := 0) le_rfl true 1 (refLib_good (by decide) le_rfl _ _) true (ws := List.replicate 38 7) (data := [1, 2, 3, 4, 5])
    (by rw [List.length_replicate]; decide) (base := 0) le_rfl (by decide) (X := fun c k => 2 * c + k + 1) (by
      intro c hc k hk
      match c, hc, k, hk with
      | 0, _, 0, _ => norm_num [rd]
      | 0, _, 1, _ => norm_num [rd]
      | 1, _, 0, _ => norm_num [rd]; rfl
      | 1, _, 1, _ => norm_num [rd]; rfl)
  refine ⟨out, h1, ?_, ?_, ?_⟩
  · have := h3 0 (by decide) 0 (by decide)
    norm_num [trigOf, redft10, Finset.sum_range_succ] at this
    exact this
  · have := h3 1 (by decide) 0 (by decide)
    norm_num [trigOf, redft10, Finset.sum_range_succ] at this
    exact this
  · rw [h4 4 (by decide)]
    rfl

end Verif
