import Verif.VendorLemmas

namespace Verif
variable {α β : Type}

theorem mklR2C_eq (T : List α → Res (List β)) {b : Box} (hb : b.empty = false) (d : Fin 3) (rbase cbase : Int) (src : List α) (dst : List β) :
    mklR2C T b d rbase cbase src dst = execR2C 1 (fun _ => T) b d rbase cbase src dst := by
  unfold mklR2C execR2C
  dsimp only
  rw [laneGroups_one hb, ← runOut_fold]
  rfl

theorem mklC2R_eq (T : List α → Res (List β)) {b : Box} (hb : b.empty = false) (d : Fin 3) (cbase rbase : Int) (src : List α) (dst : List β) :
    mklC2R T b d cbase rbase src dst = execC2R 1 (fun _ => T) b d cbase rbase src dst := by
  unfold mklC2R execC2R
  dsimp only
  rw [laneGroups_one hb, ← runOut_fold]
  rfl

theorem libOut_congr {T : List α → Res (List β)} {n m : Nat} {howmany stride idist odist ibase ibase' obase : Int} {src src' : List α}
    (h : ∀ p, 0 ≤ p ∧ p < howmany → readLine src (ibase + p * idist) stride n = readLine src' (ibase' + p * idist) stride n) (dst : List β) :
    libOut T n m howmany stride idist odist ibase obase src dst = libOut T n m howmany stride idist odist ibase' obase src' dst := by
  unfold libOut
  have : ∀ (l : List Int), (∀ p ∈ l, 0 ≤ p ∧ p < howmany) → ∀ dst : List β,
      runOut (fun _ => T) n m stride src (l.map fun p => [(ibase + p * idist, obase + p * odist)]) dst =
        runOut (fun _ => T) n m stride src' (l.map fun p => [(ibase' + p * idist, obase + p * odist)]) dst := by
    intro l
    induction l with
    | nil => intro _ _; rfl
    | cons p t ih =>
      intro hl dst
      have hg : runGroup (fun _ => T) n m stride src [(ibase + p * idist, obase + p * odist)] dst =
          runGroup (fun _ => T) n m stride src' [(ibase' + p * idist, obase + p * odist)] dst := by
        unfold runGroup runLine
        simp only [List.mapM_cons, List.mapM_nil]
        rw [h p (hl p (by simp))]
        simp only [bind, Except.bind, pure, Except.pure]
        split
        · rfl
        · rename_i heq
          split at heq
          · cases heq
          · cases heq
            rfl
      simp only [List.map_cons, runOut, hg]
      refine congrArg (Except.bind _) (funext fun r => ih (fun q hq => hl q (by simp [hq])) r)
  exact this _ (fun p hp => mem_loop.1 hp) dst

theorem copyRange_ok {src dst : List α} {sbase n dbase : Int} (hs : 0 ≤ sbase) (hs' : sbase + n ≤ src.length) (hd : 0 ≤ dbase)
    (hd' : dbase + n ≤ dst.length) :
    ∃ r, copyRange src sbase n dst dbase = .ok r ∧ r.length = dst.length ∧ (∀ i, 0 ≤ i ∧ i < n → rd r (dbase + i) = rd src (sbase + i)) ∧
      ∀ a, (a < dbase ∨ dbase + n ≤ a) → rd r a = rd dst a := by
  unfold copyRange
  obtain ⟨r, r1, r2, r3, r4⟩ := copyMoves_ok (moves := (loop n).map fun i => (dbase + i, sbase + i)) (src := src) (dst := dst)
    (by
      intro m hm
      obtain ⟨i, hi, rfl⟩ := List.mem_map.1 hm
      rw [mem_loop] at hi
      dsimp only
      omega)
    (by
      intro m hm u hu he
      obtain ⟨i, hi, rfl⟩ := List.mem_map.1 hm
      obtain ⟨j, hj, rfl⟩ := List.mem_map.1 hu
      dsimp only at he ⊢
      omega)
  refine ⟨r, r1, r2, ?_, ?_⟩
  · intro i hi
    exact r3 (dbase + i, sbase + i) (List.mem_map.2 ⟨i, mem_loop.2 hi, rfl⟩)
  · intro a ha
    refine r4 a fun m hm => ?_
    obtain ⟨i, hi, rfl⟩ := List.mem_map.1 hm
    rw [mem_loop] at hi
    dsimp only
    omega

/-- A call of the library whose results fill the entries from `obase` to `obase + K`. -/
theorem libOut_ok {T : List α → Res (List β)} {t : List α → Nat → β} {n m : Nat} {howmany stride idist odist ibase obase K : Int}
    (hT : ∀ v, v.length = n → T v = .ok ((List.range m).map (t v)))
    (hr : ∀ p k, 0 ≤ p ∧ p < howmany → (k : Nat) < m → 0 ≤ p * odist + k * stride ∧ p * odist + k * stride < K)
    (hi : ∀ p p' (k k' : Nat), 0 ≤ p ∧ p < howmany → 0 ≤ p' ∧ p' < howmany → k < m → k' < m →
      p * odist + k * stride = p' * odist + k' * stride → p = p' ∧ k = k')
    (hm : 0 < m) {src : List α} {line : Int → List α}
    (hl : ∀ p, 0 ≤ p ∧ p < howmany → readLine src (ibase + p * idist) stride n = some (line p) ∧ (line p).length = n)
    {dst : List β} (h0 : 0 ≤ obase) (hlen : obase + K ≤ dst.length) :
    ∃ r, libOut T n m howmany stride idist odist ibase obase src dst = .ok r ∧ r.length = dst.length ∧
      (∀ p (k : Nat), 0 ≤ p ∧ p < howmany → k < m → rd r (obase + (p * odist + k * stride)) = some (t (line p) k)) ∧
      ∀ a, (a < obase ∨ obase + K ≤ a) → rd r a = rd dst a := by
  unfold libOut
  have hfl : ((loop howmany).map fun p => [(ibase + p * idist, obase + p * odist)]).flatten =
      (loop howmany).map fun p => (ibase + p * idist, obase + p * odist) := by
    induction loop howmany with
    | nil => rfl
    | cons a t ih => rw [List.map_cons, List.flatten_cons, ih]; rfl
  have hp : ∀ x ∈ (loop howmany).map fun p => (ibase + p * idist, obase + p * odist), ∃ p, (0 ≤ p ∧ p < howmany) ∧
      x = (ibase + p * idist, obase + p * odist) := by
    intro x hx
    obtain ⟨p, hp, rfl⟩ := List.mem_map.1 hx
    exact ⟨p, mem_loop.1 hp, rfl⟩
  obtain ⟨r, r1, r2, r3, r4⟩ := runOut_ok (T := fun _ => T) (t := t) (n := n) (m := m) (stride := stride) (fun _ v hv => hT v hv) (src := src)
    (line := fun s => (readLine src s.1 stride n).getD []) ((loop howmany).map fun p => [(ibase + p * idist, obase + p * odist)]) dst
    (by
      rw [hfl]
      intro s hs
      obtain ⟨p, hp, rfl⟩ := hp s hs
      dsimp only
      rw [(hl p hp).1]
      exact ⟨rfl, (hl p hp).2⟩)
    (by
      rw [hfl, List.map_map]
      constructor
      · intro s hs i hi'
        obtain ⟨p, hp, rfl⟩ := List.mem_map.1 hs
        have := hr p i (mem_loop.1 hp) hi'
        simp only [Function.comp_apply]
        omega
      · intro s hs s' hs' i hi1 i' hi2 he
        obtain ⟨p, hp, rfl⟩ := List.mem_map.1 hs
        obtain ⟨p', hp', rfl⟩ := List.mem_map.1 hs'
        simp only [Function.comp_apply] at he ⊢
        have := hi p p' i i' (mem_loop.1 hp) (mem_loop.1 hp') hi1 hi2 (by omega)
        rw [this.1]
        exact ⟨rfl, this.2⟩)
    (by
      rw [hfl, List.map_map]
      refine List.Nodup.map_on ?_ (loop_nodup _)
      intro p hp p' hp' he
      simp only [Function.comp_apply] at he
      exact (hi p p' 0 0 (mem_loop.1 hp) (mem_loop.1 hp') hm hm (by simpa using he)).1)
  rw [hfl] at r3 r4
  refine ⟨r, r1, r2, ?_, ?_⟩
  · intro p k hp' hk
    have := r3 (ibase + p * idist, obase + p * odist) (List.mem_map.2 ⟨p, mem_loop.2 hp', rfl⟩) k hk
    dsimp only at this
    rw [(hl p hp').1] at this
    rw [← add_assoc]
    exact this
  · intro a ha
    refine r4 a fun s hs i hi' => ?_
    obtain ⟨p, hp', rfl⟩ := hp s hs
    have := hr p i hp' hi'
    dsimp only
    omega

/-! ## cuFFT -/

theorem cBlock_cases (b : Box) (d : Fin 3) (h : cufftDirect b d = false) : d = b.order.y ∧ rBlock b % 2 = 1 := by
  unfold cufftDirect at h
  rw [Bool.or_eq_false_iff] at h
  have h1 := of_decide_eq_false h.1
  have h2 := of_decide_eq_false h.2
  constructor
  · by_contra hc
    rw [numBlocks_eq, if_neg hc] at h1
    exact h1 rfl
  · omega

theorem alignAt_work (addr : Int) : (0 ≤ alignAt true addr 0 ∧ alignAt true addr 0 ≤ 1) ∧ (addr + alignAt true addr 0) % 2 = 0 := by
  unfold alignAt
  rw [if_pos rfl]
  split <;> omega

theorem count_blocks {b : Box} (hor : IsOrder b.order) (hb : b.empty = false) : b.count = b.osize 2 * rBlock b := by
  rw [Box.count_osize hor hb]; unfold rBlock; ring

section
variable {b : Box} {d : Fin 3} (hor : IsOrder b.order) (hb : b.empty = false)
include hor hb

/-- The lines of one block of the second fastest direction are inside of the block. -/
theorem block_range (hd : d = b.order.y) : howMany b d = b.osize 0 ∧ lineStride b d = b.osize 0 ∧ rDist b d = 1 ∧ cDist b d = 1 ∧
    b.size.get d = b.osize 1 := by
  have n1 : d ≠ b.order.x := by rw [hd]; exact fun h => hor.1 h.symm
  refine ⟨?_, ?_, ?_, ?_, ?_⟩
  · rw [howMany_eq, if_neg n1, if_pos hd]
  · rw [lineStride_eq, if_neg n1, if_pos hd]
  · exact if_neg n1
  · exact if_neg n1
  · rw [hd]; rfl

theorem forward_via_work (T : List β → Res (List α)) (at' : Places) {rbase cbase : Int} {src : List β}
    (hnd : cufftDirect b d = false) (hr0 : 0 ≤ rbase) (hsrc : rbase + b.count ≤ src.length) (hc : at'.cplx % 2 = 0) {dst out : List α}
    (href : mklR2C T b d rbase cbase src dst = .ok out) {ws : List β} (hws : 2 * cufftWork b d ≤ ws.length) :
    ∃ ws', cufftR2C T b d at' rbase cbase ws src dst = .ok (ws', out) ∧ ws'.length = ws.length ∧
      ∀ a, 2 * cufftWork b d ≤ a → rd ws' a = rd ws a := by
  obtain ⟨hd, hodd⟩ := cBlock_cases b d hnd
  obtain ⟨e1, e2, e3, e4, e5⟩ := block_range hor hb hd
  have p0 := osize_pos hb 0
  have p1 := osize_pos hb 1
  have p2 := osize_pos hb 2
  have hcount := count_blocks hor hb
  have hnum : numBlocks b d = b.osize 2 := by rw [numBlocks_eq, if_pos hd]
  have hrb : rBlock b = b.osize 0 * b.osize 1 := rfl
  have hrpos : 0 < rBlock b := mul_pos p0 p1
  have hwork : 2 * cufftWork b d = rBlock b + 1 := by
    unfold cufftWork
    rw [hnd]
    simp only [Bool.false_eq_true, if_false]
    omega
  obtain ⟨⟨a0, a1⟩, a2⟩ := alignAt_work at'.work
  have hblock : ∀ i, 0 ≤ i ∧ i < numBlocks b d → 0 ≤ i * rBlock b ∧ i * rBlock b + rBlock b ≤ b.count := by
    intro i hi
    rw [hnum] at hi
    have h1 : 0 ≤ i * rBlock b := mul_nonneg hi.1 hrpos.le
    have h2 : (i + 1) * rBlock b ≤ b.osize 2 * rBlock b := mul_le_mul_of_nonneg_right (by omega) hrpos.le
    rw [add_mul, one_mul] at h2
    rw [hcount]
    exact ⟨h1, h2⟩
  have key : ∀ (l : List Int), (∀ i ∈ l, 0 ≤ i ∧ i < numBlocks b d) → ∀ (ws : List β) (dst : List α), 2 * cufftWork b d ≤ ws.length →
      l.foldlM (fun m i => libForward T b d (rbase + i * rBlock b) (cbase + i * cBlock b) src m) dst = .ok out →
      ∃ ws', l.foldlM (cufftBlockR2C T b d at' rbase cbase src) (ws, dst) = (.ok (ws', out) : Res (List β × List α)) ∧ ws'.length = ws.length ∧
        ∀ a, 2 * cufftWork b d ≤ a → rd ws' a = rd ws a := by
    intro l
    induction l with
    | nil =>
      intro _ ws dst _ h
      rw [List.foldlM_nil] at h
      cases h
      exact ⟨ws, rfl, rfl, fun _ _ => rfl⟩
    | cons i t ih =>
      intro hl ws dst hw h
      have hi := hl i (by simp)
      obtain ⟨b0, b1⟩ := hblock i hi
      obtain ⟨w, w1, w2, w3, w4⟩ := copyRange_ok (src := src) (dst := ws) (sbase := rbase + i * rBlock b) (n := rBlock b)
        (dbase := alignAt true at'.work 0) (by omega) (by omega) a0 (by omega)
      have hcongr : ∀ m : List α, libForward T b d (alignAt true at'.work 0) (cbase + i * cBlock b) w m =
          libForward T b d (rbase + i * rBlock b) (cbase + i * cBlock b) src m := by
        intro m
        refine libOut_congr (fun p hp => ?_) m
        rw [e1] at hp
        unfold readLine
        have : ∀ l : List Nat, (∀ k ∈ l, k < (b.size.get d).toNat) →
            (l.mapM fun (k : Nat) => rd w (alignAt true at'.work 0 + p * rDist b d + k * lineStride b d)) =
              l.mapM fun (k : Nat) => rd src (rbase + i * rBlock b + p * rDist b d + k * lineStride b d) := by
          intro l
          induction l with
          | nil => intro _; rfl
          | cons k t ih =>
            intro hk
            rw [List.mapM_cons, List.mapM_cons, ih fun k' hk' => hk k' (by simp [hk'])]
            have hkk := hk k (by simp)
            have hlt : p * rDist b d + k * lineStride b d < rBlock b := by
              rw [e3, e2, hrb, mul_one]
              have : ((k : Int) + 1) * b.osize 0 ≤ b.osize 1 * b.osize 0 := mul_le_mul_of_nonneg_right (by omega) p0.le
              rw [add_mul, one_mul, mul_comm (b.osize 1)] at this
              omega
            have hge : 0 ≤ p * rDist b d + k * lineStride b d := by
              rw [e3, e2, mul_one]
              have : (0 : Int) ≤ (k : Int) * b.osize 0 := mul_nonneg (by omega) p0.le
              omega
            have := w3 _ ⟨hge, hlt⟩
            rw [← add_assoc, ← add_assoc] at this
            rw [this]
        exact this _ fun k hk => List.mem_range.1 hk
      rw [List.foldlM_cons] at h
      cases hlib : libForward T b d (rbase + i * rBlock b) (cbase + i * cBlock b) src dst with
      | error e => rw [hlib] at h; cases h
      | ok m =>
        rw [hlib] at h
        obtain ⟨ws', x1, x2, x3⟩ := ih (fun j hj => hl j (by simp [hj])) w m (by rw [w2]; exact hw) h
        refine ⟨ws', ?_, x2.trans w2, fun a ha => (x3 a ha).trans (w4 a (Or.inr (by omega)))⟩
        have hal : aligned2 (at'.work + alignAt true at'.work 0) (at'.cplx + 2 * (cbase + i * cBlock b)) = true := by
          unfold aligned2
          rw [Bool.and_eq_true]
          exact ⟨decide_eq_true a2, decide_eq_true (by omega)⟩
        have hstep : cufftBlockR2C T b d at' rbase cbase src (ws, dst) i = .ok (w, m) := by
          unfold cufftBlockR2C
          rw [hnd]
          simp only [Bool.false_eq_true, if_false, bind, Except.bind, w1, hal, if_true, hcongr, hlib, pure, Except.pure]
        rw [List.foldlM_cons, hstep]
        exact x1
  exact key _ (fun i hi => mem_loop.1 hi) ws dst hws href

omit hor in
theorem direct_aligned {at' : Places} {rbase c i : Int} (hdir : cufftDirect b d = true) (hr : (at'.real + rbase) % 2 = 0) (hc : at'.cplx % 2 = 0)
    (hi : 0 ≤ i ∧ i < numBlocks b d) : aligned2 (at'.real + (rbase + i * rBlock b)) (at'.cplx + 2 * c) = true := by
  have : (i * rBlock b) % 2 = 0 := by
    unfold cufftDirect at hdir
    rw [Bool.or_eq_true] at hdir
    rcases hdir with h | h
    · have := of_decide_eq_true h
      rw [show i = 0 by omega, zero_mul]
      rfl
    · rw [Int.mul_emod, of_decide_eq_true h, mul_zero]
      rfl
  unfold aligned2
  rw [Bool.and_eq_true]
  exact ⟨decide_eq_true (by omega), decide_eq_true (by omega)⟩

omit hor in
theorem forward_direct (T : List β → Res (List α)) (at' : Places) {rbase cbase : Int} {src : List β}
    (hdir : cufftDirect b d = true) (hr : (at'.real + rbase) % 2 = 0) (hc : at'.cplx % 2 = 0) {dst out : List α}
    (href : mklR2C T b d rbase cbase src dst = .ok out) (ws : List β) : cufftR2C T b d at' rbase cbase ws src dst = .ok (ws, out) := by
  have key : ∀ (l : List Int), (∀ i ∈ l, 0 ≤ i ∧ i < numBlocks b d) → ∀ dst : List α,
      l.foldlM (fun m i => libForward T b d (rbase + i * rBlock b) (cbase + i * cBlock b) src m) dst = .ok out →
      l.foldlM (cufftBlockR2C T b d at' rbase cbase src) (ws, dst) = .ok (ws, out) := by
    intro l
    induction l with
    | nil => intro _ dst h; rw [List.foldlM_nil] at h; cases h; rfl
    | cons i t ih =>
      intro hl dst h
      rw [List.foldlM_cons] at h
      cases hlib : libForward T b d (rbase + i * rBlock b) (cbase + i * cBlock b) src dst with
      | error e => rw [hlib] at h; cases h
      | ok m =>
        rw [hlib] at h
        have hstep : cufftBlockR2C T b d at' rbase cbase src (ws, dst) i = .ok (ws, m) := by
          unfold cufftBlockR2C
          rw [hdir]
          simp only [if_true, bind, Except.bind, direct_aligned hb hdir hr hc (hl i (by simp)), hlib, pure, Except.pure]
        rw [List.foldlM_cons, hstep]
        exact ih (fun j hj => hl j (by simp [hj])) m h
  exact key _ (fun i hi => mem_loop.1 hi) dst href

omit hor in
theorem backward_direct (T : List α → Res (List β)) (at' : Places) {rbase cbase : Int} {src : List α}
    (hdir : cufftDirect b d = true) (hr : (at'.real + rbase) % 2 = 0) (hc : at'.cplx % 2 = 0) {dst out : List β}
    (href : mklC2R T b d cbase rbase src dst = .ok out) (ws : List β) : cufftC2R T b d at' cbase rbase ws src dst = .ok (ws, out) := by
  have key : ∀ (l : List Int), (∀ i ∈ l, 0 ≤ i ∧ i < numBlocks b d) → ∀ dst : List β,
      l.foldlM (fun m i => libBackward T b d (cbase + i * cBlock b) (rbase + i * rBlock b) src m) dst = .ok out →
      l.foldlM (cufftBlockC2R T b d at' cbase rbase src) (ws, dst) = .ok (ws, out) := by
    intro l
    induction l with
    | nil => intro _ dst h; rw [List.foldlM_nil] at h; cases h; rfl
    | cons i t ih =>
      intro hl dst h
      rw [List.foldlM_cons] at h
      cases hlib : libBackward T b d (cbase + i * cBlock b) (rbase + i * rBlock b) src dst with
      | error e => rw [hlib] at h; cases h
      | ok m =>
        rw [hlib] at h
        have hstep : cufftBlockC2R T b d at' cbase rbase src (ws, dst) i = .ok (ws, m) := by
          unfold cufftBlockC2R
          rw [hdir]
          simp only [if_true, bind, Except.bind, direct_aligned hb hdir hr hc (hl i (by simp)), hlib, pure, Except.pure]
        rw [List.foldlM_cons, hstep]
        exact ih (fun j hj => hl j (by simp [hj])) m h
  exact key _ (fun i hi => mem_loop.1 hi) dst href

/-- The lines of the complex box, read by block and number. -/
theorem read_complex_line {src : List α} {cbase : Int} {G : A3 Int → α} (hG : Holds (b.r2c d) src cbase G) {i p : Int}
    (hi : 0 ≤ i ∧ i < numBlocks b d) (hp : 0 ≤ p ∧ p < howMany b d) :
    ∃ v, readLine src (cbase + i * cBlock b + p * cDist b d) (lineStride b d) ((b.size.get d + 2) / 2).toNat = some v ∧
      v.length = ((b.size.get d + 2) / 2).toNat := by
  have hs := SameLines.r2c hb d
  obtain ⟨q1, q2, q3⟩ := r2c_fields hb d
  have hpos := (SameLines.refl hb d).pos
  have hd := q3 d
  rw [if_pos rfl] at hd
  have hsz : ((b.size.get d + 2) / 2).toNat = ((b.r2c d).size.get d).toNat := by rw [hd]; omega
  obtain ⟨f1, f2⟩ := face_mem hor hb hi hp
  have hoff := face_offset (c := b.r2c d) hor hs i p (dist := cDist b d) (block := cBlock b)
    (by change (if d = b.order.x then b.size.get d / 2 + 1 else 1) = _; rw [hd])
    (by
      intro hdy
      have hne : b.order.x ≠ d := by rw [hdy]; exact hor.1
      have e0 : (b.r2c d).osize 0 = b.osize 0 := by
        simp only [Box.osize, q2, A3.get_zero, q3, if_neg hne]
      have e1 : (b.r2c d).osize 1 = b.osize 1 / 2 + 1 := by
        simp only [Box.osize, q2, A3.get_one, q3, ← hdy, if_true]
      rw [e0, e1]; rfl) hi
  have ho' : IsOrder (b.r2c d).order := by rw [q2]; exact hor
  have hread := readLine_box ho' hG (mem_same hs f1 f2) (by rw [q1]; exact f2)
  rw [lineStride_same hor hs, hoff, ← hsz, ← add_assoc] at hread
  refine ⟨_, hread, ?_⟩
  rw [hsz, Box.size_get]
  simp [lineOf]

theorem backward_via_work {T : List α → Res (List β)} {t : List α → Nat → β} (at' : Places) {rbase cbase : Int} {src : List α}
    (hT : ∀ v, v.length = ((b.size.get d + 2) / 2).toNat → T v = .ok ((List.range (b.size.get d).toNat).map (t v)))
    {G : A3 Int → α} (hG : Holds (b.r2c d) src cbase G)
    (hnd : cufftDirect b d = false) (hr0 : 0 ≤ rbase) (hc : at'.cplx % 2 = 0) {dst out : List β} (hdst : rbase + b.count ≤ dst.length)
    (href : mklC2R T b d cbase rbase src dst = .ok out) {ws : List β} (hws : 2 * cufftWork b d ≤ ws.length) :
    ∃ ws', cufftC2R T b d at' cbase rbase ws src dst = .ok (ws', out) ∧ ws'.length = ws.length ∧
      ∀ a, 2 * cufftWork b d ≤ a → rd ws' a = rd ws a := by
  obtain ⟨hd, hodd⟩ := cBlock_cases b d hnd
  obtain ⟨e1, e2, e3, e4, e5⟩ := block_range hor hb hd
  have p0 := osize_pos hb 0
  have p1 := osize_pos hb 1
  have p2 := osize_pos hb 2
  have hcount := count_blocks hor hb
  have hnum : numBlocks b d = b.osize 2 := by rw [numBlocks_eq, if_pos hd]
  have hrb : rBlock b = b.osize 0 * b.osize 1 := rfl
  have hrpos : 0 < rBlock b := mul_pos p0 p1
  have hwork : 2 * cufftWork b d = rBlock b + 1 := by
    unfold cufftWork
    rw [hnd]
    simp only [Bool.false_eq_true, if_false]
    omega
  obtain ⟨⟨a0, a1⟩, a2⟩ := alignAt_work at'.work
  have hblock : ∀ i, 0 ≤ i ∧ i < numBlocks b d → 0 ≤ i * rBlock b ∧ i * rBlock b + rBlock b ≤ b.count := by
    intro i hi
    rw [hnum] at hi
    have h1 : 0 ≤ i * rBlock b := mul_nonneg hi.1 hrpos.le
    have h2 : (i + 1) * rBlock b ≤ b.osize 2 * rBlock b := mul_le_mul_of_nonneg_right (by omega) hrpos.le
    rw [add_mul, one_mul] at h2
    rw [hcount]
    exact ⟨h1, h2⟩
  have hrange : ∀ p (k : Nat), 0 ≤ p ∧ p < howMany b d → k < (b.size.get d).toNat →
      0 ≤ p * rDist b d + k * lineStride b d ∧ p * rDist b d + k * lineStride b d < rBlock b := by
    intro p k hp hk
    rw [e1] at hp
    rw [e3, e2, hrb, mul_one]
    have h1 : ((k : Int) + 1) * b.osize 0 ≤ b.osize 1 * b.osize 0 := mul_le_mul_of_nonneg_right (by omega) p0.le
    have h2 : (0 : Int) ≤ (k : Int) * b.osize 0 := mul_nonneg (by omega) p0.le
    rw [add_mul, one_mul, mul_comm (b.osize 1)] at h1
    omega
  have hinj : ∀ p p' (k k' : Nat), 0 ≤ p ∧ p < howMany b d → 0 ≤ p' ∧ p' < howMany b d → k < (b.size.get d).toNat → k' < (b.size.get d).toNat →
      p * rDist b d + k * lineStride b d = p' * rDist b d + k' * lineStride b d → p = p' ∧ k = k' := by
    intro p p' k k' hp hp' _ _ he
    rw [e1] at hp hp'
    rw [e3, e2, mul_one, mul_one] at he
    have h1 : (p + (k : Int) * b.osize 0) % b.osize 0 = p := by rw [Int.add_mul_emod_self_right, Int.emod_eq_of_lt hp.1 hp.2]
    have h2 : (p' + (k' : Int) * b.osize 0) % b.osize 0 = p' := by rw [Int.add_mul_emod_self_right, Int.emod_eq_of_lt hp'.1 hp'.2]
    have hpp : p = p' := by rw [← h1, ← h2, he]
    subst hpp
    refine ⟨rfl, ?_⟩
    have := mul_right_cancel₀ p0.ne' (add_left_cancel he)
    omega
  have hsurj : ∀ x, 0 ≤ x ∧ x < rBlock b → ∃ p, ∃ k : Nat, (0 ≤ p ∧ p < howMany b d) ∧ k < (b.size.get d).toNat ∧ x = p * rDist b d + k * lineStride b d := by
    intro x hx
    obtain ⟨q1, q2⟩ := div_range p0 (n := b.osize 1) (by rw [mul_comm]; exact hx)
    refine ⟨x % b.osize 0, (x / b.osize 0).toNat, by rw [e1]; exact q2, by omega, ?_⟩
    rw [e3, e2, mul_one, Int.toNat_of_nonneg q1.1, mul_comm (x / _)]
    exact (Int.emod_add_mul_ediv x (b.osize 0)).symm
  have hm : 0 < (b.size.get d).toNat := by omega
  have key : ∀ (l : List Int), (∀ i ∈ l, 0 ≤ i ∧ i < numBlocks b d) → ∀ (ws dst : List β), 2 * cufftWork b d ≤ ws.length →
      rbase + b.count ≤ dst.length →
      l.foldlM (fun m i => libBackward T b d (cbase + i * cBlock b) (rbase + i * rBlock b) src m) dst = .ok out →
      ∃ ws', l.foldlM (cufftBlockC2R T b d at' cbase rbase src) (ws, dst) = (.ok (ws', out) : Res (List β × List β)) ∧ ws'.length = ws.length ∧
        ∀ a, 2 * cufftWork b d ≤ a → rd ws' a = rd ws a := by
    intro l
    induction l with
    | nil =>
      intro _ ws dst _ _ h
      rw [List.foldlM_nil] at h
      cases h
      exact ⟨ws, rfl, rfl, fun _ _ => rfl⟩
    | cons i t' ih =>
      intro hl ws dst hw hdl h
      have hi := hl i (by simp)
      obtain ⟨b0, b1⟩ := hblock i hi
      have hline : ∀ p, 0 ≤ p ∧ p < howMany b d → ∃ v, readLine src (cbase + i * cBlock b + p * cDist b d) (lineStride b d)
          ((b.size.get d + 2) / 2).toNat = some v ∧ v.length = ((b.size.get d + 2) / 2).toNat := fun p hp => read_complex_line hor hb hG hi hp
      have hl' : ∀ p, 0 ≤ p ∧ p < howMany b d → readLine src (cbase + i * cBlock b + p * cDist b d) (lineStride b d)
          ((b.size.get d + 2) / 2).toNat = some ((readLine src (cbase + i * cBlock b + p * cDist b d) (lineStride b d)
          ((b.size.get d + 2) / 2).toNat).getD []) ∧ ((readLine src (cbase + i * cBlock b + p * cDist b d) (lineStride b d)
          ((b.size.get d + 2) / 2).toNat).getD []).length = ((b.size.get d + 2) / 2).toNat := by
        intro p hp
        obtain ⟨v, v1, v2⟩ := hline p hp
        rw [v1]
        exact ⟨rfl, v2⟩
      obtain ⟨w, w1, w2, w3, w4⟩ := libOut_ok (K := rBlock b) (odist := rDist b d) hT hrange hinj hm (src := src) hl'
        (obase := alignAt true at'.work 0) (dst := ws) a0 (by omega)
      obtain ⟨r, r1, r2, r3, r4⟩ := libOut_ok (K := rBlock b) (odist := rDist b d) hT hrange hinj hm (src := src) hl'
        (obase := rbase + i * rBlock b) (dst := dst) (by omega) (by omega)
      obtain ⟨c, c1, c2, c3, c4⟩ := copyRange_ok (src := w) (dst := dst) (sbase := alignAt true at'.work 0) (n := rBlock b)
        (dbase := rbase + i * rBlock b) a0 (by omega) (by omega) (by omega)
      have hcr : c = r := by
        refine ext_rd (c2.trans r2.symm) fun a h0 h1 => ?_
        by_cases hin : a < rbase + i * rBlock b ∨ rbase + i * rBlock b + rBlock b ≤ a
        · rw [c4 a hin, r4 a hin]
        · obtain ⟨p, k, hp, hk, he⟩ := hsurj (a - (rbase + i * rBlock b)) (by omega)
          have x1 := c3 _ ⟨(hrange p k hp hk).1, (hrange p k hp hk).2⟩
          rw [w3 p k hp hk] at x1
          have x2 := r3 p k hp hk
          rw [← he, add_sub_cancel] at x1 x2
          rw [x1, x2]
      rw [List.foldlM_cons] at h
      have hlib : libBackward T b d (cbase + i * cBlock b) (rbase + i * rBlock b) src dst = .ok r := r1
      rw [hlib] at h
      obtain ⟨ws', x1, x2, x3⟩ := ih (fun j hj => hl j (by simp [hj])) w r (by rw [w2]; exact hw) (by rw [r2]; exact hdl) h
      refine ⟨ws', ?_, x2.trans w2, fun a ha => (x3 a ha).trans (w4 a (Or.inr (by omega)))⟩
      have hal : aligned2 (at'.work + alignAt true at'.work 0) (at'.cplx + 2 * (cbase + i * cBlock b)) = true := by
        unfold aligned2
        rw [Bool.and_eq_true]
        exact ⟨decide_eq_true a2, decide_eq_true (by omega)⟩
      have hlibw : libBackward T b d (cbase + i * cBlock b) (alignAt true at'.work 0) src ws = .ok w := w1
      have hstep : cufftBlockC2R T b d at' cbase rbase src (ws, dst) i = .ok (w, r) := by
        unfold cufftBlockC2R
        rw [hnd]
        simp only [Bool.false_eq_true, if_false, bind, Except.bind, hal, if_true, hlibw, c1, hcr, pure, Except.pure]
      rw [List.foldlM_cons, hstep]
      exact x1
  exact key _ (fun i hi => mem_loop.1 hi) ws dst hws hdst href

end

/-! ## rocFFT -/

/-- The entry `x` of the array is read by the call for block `i`. -/
def ReadBy (b : Box) (d : Fin 3) (n dist block i x : Int) : Prop :=
  ∃ p, ∃ k : Nat, (0 ≤ p ∧ p < howMany b d) ∧ (k : Int) < n ∧ x = i * block + p * dist + k * lineStride b d

theorem readBy_facts {b c : Box} {d : Fin 3} (hor : IsOrder b.order) (hb : b.empty = false) (h : SameLines b c d) {dist block : Int}
    (hd : dist = if d = b.order.x then c.size.get d else 1) (hbl : d = b.order.y → block = c.osize 0 * c.osize 1) :
    (∀ i x, 0 ≤ i ∧ i < numBlocks b d → ReadBy b d (c.size.get d) dist block i x → 0 ≤ x ∧ x < c.count) ∧
    ∀ i j x, 0 ≤ i ∧ i < numBlocks b d → 0 ≤ j ∧ j < numBlocks b d → ReadBy b d (c.size.get d) dist block i x →
      ReadBy b d (c.size.get d) dist block j x → i = j := by
  have hoc : IsOrder c.order := by rw [h.order]; exact hor
  have key : ∀ i p (k : Nat), 0 ≤ i ∧ i < numBlocks b d → 0 ≤ p ∧ p < howMany b d → (k : Int) < c.size.get d →
      i * block + p * dist + k * lineStride b d = c.offset ((face b d i p).set d (c.low.get d + k)) ∧
      (face b d i p).set d (c.low.get d + k) ∈ c ∧ (face b d i p).get d = c.low.get d := by
    intro i p k hi hp hk
    obtain ⟨f1, f2⟩ := face_mem hor hb hi hp
    have f3 : (face b d i p).get d = c.low.get d := by rw [h.low]; exact f2
    refine ⟨?_, ?_, f3⟩
    · rw [offset_set hoc, face_offset hor h i p hd hbl hi, lineStride_same hor h, f3, add_sub_cancel_left]
    · refine mem_set (mem_same h f1 f2) (by omega) ?_
      rw [Box.size_get] at hk
      omega
  refine ⟨?_, ?_⟩
  · rintro i x hi ⟨p, k, hp, hk, rfl⟩
    obtain ⟨k1, k2, -⟩ := key i p k hi hp hk
    rw [k1]
    exact Box.offset_range hoc k2
  · rintro i j x hi hj ⟨p, k, hp, hk, rfl⟩ ⟨p', k', hp', hk', he⟩
    obtain ⟨k1, k2, k3⟩ := key i p k hi hp hk
    obtain ⟨l1, l2, l3⟩ := key j p' k' hj hp' hk'
    rw [k1, l1] at he
    have he2 := Box.offset_inj hoc k2 l2 he
    have : face b d i p = face b d j p' := by
      rw [← set_self (face b d i p) d (c.low.get d + k), he2, k3, ← l3, set_self]
    exact (face_inj hor hi hj this).1

/-- The library may write to its temporary array, which has `w` entries, and to the input of the call. -/
def LibWrites (scribble : Scribble α) (w : Int) (reads : Int → Int → Prop) : Prop :=
  ∀ (k : Nat) (ws : List α), (scribble k ws).length = ws.length ∧ ∀ x, 0 ≤ x → ¬ reads k x → rd (scribble k ws) (w + x) = rd ws (w + x)

theorem roc_fold {scribble : Scribble α} {w base count : Int} {reads : Int → Int → Prop} (hs : LibWrites scribble w reads) {src : List α}
    {f : Int → List α → List β → Res (List β)} {g : Int → List β → Res (List β)} {ok : Int → Prop} (hok : ∀ i, ok i → 0 ≤ i)
    (hcongr : ∀ i, ok i → ∀ ws dst, (∀ x, reads i x → rd ws (w + x) = rd src (base + x)) → f i ws dst = g i dst)
    (hrange : ∀ i x, ok i → reads i x → 0 ≤ x ∧ x < count)
    (hdisj : ∀ i j x, ok i → ok j → reads i x → reads j x → i = j) {out : List β} :
    ∀ (l : List Int), (∀ i ∈ l, ok i) → l.Nodup → ∀ (ws : List α) (dst : List β), (∀ i ∈ l, ∀ x, reads i x → rd ws (w + x) = rd src (base + x)) →
      l.foldlM (fun m i => g i m) dst = .ok out →
      ∃ ws', l.foldlM (fun (m : List α × List β) i => (do
          let dst ← f i m.1 m.2
          return (scribble i.toNat m.1, dst) : Res (List α × List β))) (ws, dst) = .ok (ws', out) ∧ ws'.length = ws.length ∧
        ∀ a, 0 ≤ a - w → count ≤ a - w → rd ws' a = rd ws a := by
  intro l
  induction l with
  | nil =>
    intro _ _ ws dst _ h
    rw [List.foldlM_nil] at h
    cases h
    exact ⟨ws, rfl, rfl, fun _ _ _ => rfl⟩
  | cons i t ih =>
    intro hl hn ws dst hws h
    rw [List.nodup_cons] at hn
    have hi := hl i (by simp)
    have hf := hcongr i hi ws dst (hws i (by simp))
    have h0 := hok i hi
    have hin : ((i.toNat : Nat) : Int) = i := Int.toNat_of_nonneg h0
    rw [List.foldlM_cons] at h
    cases hg : g i dst with
    | error e => rw [hg] at h; cases h
    | ok r =>
      rw [hg] at h
      obtain ⟨s1, s2⟩ := hs i.toNat ws
      rw [hin] at s2
      obtain ⟨ws', x1, x2, x3⟩ := ih (fun j hj => hl j (by simp [hj])) hn.2 (scribble i.toNat ws) r
        (fun j hj x hx => by
          rw [s2 x (hrange j x (hl j (by simp [hj])) hx).1 fun hxi => hn.1 (by
            rw [hdisj i j x hi (hl j (by simp [hj])) hxi hx]; exact hj)]
          exact hws j (by simp [hj]) x hx) h
      refine ⟨ws', ?_, x2.trans s1, fun a a0 a1 => ?_⟩
      · rw [List.foldlM_cons]
        simp only [hf, hg, bind, Except.bind, pure, Except.pure]
        exact x1
      · rw [x3 a a0 a1]
        have := s2 (a - w) a0 (fun hx => by have := hrange i _ hi hx; omega)
        rw [add_sub_cancel] at this
        exact this

theorem libOut_reads {T : List α → Res (List β)} {b : Box} {d : Fin 3} {n : Int} {m : Nat} {idist odist iblock obase w base i : Int}
    {src ws : List α} (dst : List β) (h : ∀ x, ReadBy b d n idist iblock i x → rd ws (w + x) = rd src (base + x)) :
    libOut T n.toNat m (howMany b d) (lineStride b d) idist odist (w + i * iblock) obase ws dst =
      libOut T n.toNat m (howMany b d) (lineStride b d) idist odist (base + i * iblock) obase src dst := by
  refine libOut_congr (fun p hp => ?_) dst
  unfold readLine
  have : ∀ l : List Nat, (∀ k ∈ l, k < n.toNat) → (l.mapM fun (k : Nat) => rd ws (w + i * iblock + p * idist + k * lineStride b d)) =
      l.mapM fun (k : Nat) => rd src (base + i * iblock + p * idist + k * lineStride b d) := by
    intro l
    induction l with
    | nil => intro _; rfl
    | cons k t ih =>
      intro hk
      have hkk := hk k (by simp)
      have := h (i * iblock + p * idist + k * lineStride b d) ⟨p, k, hp, by omega, rfl⟩
      rw [← add_assoc, ← add_assoc, ← add_assoc, ← add_assoc] at this
      rw [List.mapM_cons, List.mapM_cons, ih fun k' hk' => hk k' (by simp [hk']), this]
  exact this _ fun k hk => List.mem_range.1 hk

section
variable {b : Box} {d : Fin 3} (hor : IsOrder b.order) (hb : b.empty = false)
include hor hb

theorem rocR2C_of_mkl {T : List β → Res (List α)} {scribble : Scribble β} {w rbase cbase : Int}
    (hs : LibWrites scribble w (ReadBy b d (b.size.get d) (rDist b d) (rBlock b))) (hw : 0 ≤ w) {src ws : List β} {dst out : List α}
    (hr0 : 0 ≤ rbase) (hsrc : rbase + b.count ≤ src.length) (hws : w + b.count ≤ ws.length)
    (href : mklR2C T b d rbase cbase src dst = .ok out) :
    ∃ ws', rocR2C T scribble b d w rbase cbase ws src dst = .ok (ws', out) ∧ ws'.length = ws.length ∧
      ∀ a, w + b.count ≤ a → rd ws' a = rd ws a := by
  obtain ⟨c, c1, c2, c3, c4⟩ := copyRange_ok (src := src) (dst := ws) (sbase := rbase) (n := b.count) (dbase := w) hr0 hsrc hw hws
  obtain ⟨f1, f2⟩ := readBy_facts hor hb (SameLines.refl hb d) (dist := rDist b d) (block := rBlock b) rfl (fun _ => rfl)
  obtain ⟨ws', x1, x2, x3⟩ := roc_fold hs (src := src) (base := rbase) (count := b.count)
    (f := fun i m dst => libForward T b d (w + i * rBlock b) (cbase + i * cBlock b) m dst)
    (g := fun i dst => libForward T b d (rbase + i * rBlock b) (cbase + i * cBlock b) src dst)
    (ok := fun i => 0 ≤ i ∧ i < numBlocks b d) (fun i hi => hi.1) (fun i hi m dst h => libOut_reads dst h) f1 f2
    (loop (numBlocks b d)) (fun i hi => mem_loop.1 hi) (loop_nodup _) c dst
    (fun i hi x hx => by
      have := f1 i x (mem_loop.1 hi) hx
      exact c3 x this) href
  have hcn := b.count_nonneg
  refine ⟨ws', ?_, x2.trans c2, fun a ha => ?_⟩
  · unfold rocR2C
    rw [c1]
    exact x1
  · rw [x3 a (by omega) (by omega), c4 a (Or.inr ha)]

theorem cBlock_r2c : (cDist b d = if d = b.order.x then (b.r2c d).size.get d else 1) ∧
    (d = b.order.y → cBlock b = (b.r2c d).osize 0 * (b.r2c d).osize 1) ∧
    ((b.size.get d + 2) / 2).toNat = ((b.r2c d).size.get d).toNat := by
  obtain ⟨q1, q2, q3⟩ := r2c_fields hb d
  have hpos := (SameLines.refl hb d).pos
  have hd := q3 d
  rw [if_pos rfl] at hd
  refine ⟨by change (if d = b.order.x then b.size.get d / 2 + 1 else 1) = _; rw [hd], ?_, by rw [hd]; omega⟩
  intro hdy
  have hne : b.order.x ≠ d := by rw [hdy]; exact hor.1
  have e0 : (b.r2c d).osize 0 = b.osize 0 := by
    simp only [Box.osize, q2, A3.get_zero, q3, if_neg hne]
  have e1 : (b.r2c d).osize 1 = b.osize 1 / 2 + 1 := by
    simp only [Box.osize, q2, A3.get_one, q3, ← hdy, if_true]
  rw [e0, e1]; rfl

theorem rocC2R_of_mkl {T : List α → Res (List β)} {scribble : Scribble α} {w rbase cbase : Int}
    (hs : LibWrites scribble w (ReadBy b d ((b.r2c d).size.get d) (cDist b d) (cBlock b))) (hw : 0 ≤ w) {src ws : List α} {dst out : List β}
    (hr0 : 0 ≤ cbase) (hsrc : cbase + (b.r2c d).count ≤ src.length) (hws : w + (b.r2c d).count ≤ ws.length)
    (href : mklC2R T b d cbase rbase src dst = .ok out) :
    ∃ ws', rocC2R T scribble b d w cbase rbase ws src dst = .ok (ws', out) ∧ ws'.length = ws.length ∧
      ∀ a, w + (b.r2c d).count ≤ a → rd ws' a = rd ws a := by
  obtain ⟨c, c1, c2, c3, c4⟩ := copyRange_ok (src := src) (dst := ws) (sbase := cbase) (n := (b.r2c d).count) (dbase := w) hr0 hsrc hw hws
  obtain ⟨g1, g2, g3⟩ := cBlock_r2c (d := d) hor hb
  obtain ⟨f1, f2⟩ := readBy_facts hor hb (SameLines.r2c hb d) (dist := cDist b d) (block := cBlock b) g1 g2
  obtain ⟨ws', x1, x2, x3⟩ := roc_fold hs (src := src) (base := cbase) (count := (b.r2c d).count)
    (f := fun i m dst => libBackward T b d (w + i * cBlock b) (rbase + i * rBlock b) m dst)
    (g := fun i dst => libBackward T b d (cbase + i * cBlock b) (rbase + i * rBlock b) src dst)
    (ok := fun i => 0 ≤ i ∧ i < numBlocks b d) (fun i hi => hi.1)
    (fun i hi m dst h => by
      show libOut T ((b.size.get d + 2) / 2).toNat _ _ _ _ _ _ _ _ _ = libOut T ((b.size.get d + 2) / 2).toNat _ _ _ _ _ _ _ _ _
      rw [g3]
      exact libOut_reads dst h) f1 f2
    (loop (numBlocks b d)) (fun i hi => mem_loop.1 hi) (loop_nodup _) c dst
    (fun i hi x hx => by
      have := f1 i x (mem_loop.1 hi) hx
      exact c3 x this) href
  have hcn := (b.r2c d).count_nonneg
  refine ⟨ws', ?_, x2.trans c2, fun a ha => ?_⟩
  · unfold rocC2R
    rw [c1]
    exact x1
  · rw [x3 a (by omega) (by omega), c4 a (Or.inr ha)]

end

end Verif
