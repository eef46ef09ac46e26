import Verif.ExecLemmas
import Verif.SpecExec

namespace Verif
variable {α β : Type}

/-- A box that differs from `b` at most in its extent in the direction `d`. -/
structure SameLines (b c : Box) (d : Fin 3) : Prop where
  low : c.low = b.low
  order : c.order = b.order
  size : ∀ e, e ≠ d → c.size.get e = b.size.get e
  pos : 0 < c.size.get d

theorem SameLines.refl {b : Box} (h : b.empty = false) (d : Fin 3) : SameLines b b d := by
  refine ⟨rfl, rfl, fun _ _ => rfl, ?_⟩
  have := Box.empty_false_iff.1 h d
  rw [Box.size_get]; omega

theorem r2c_fields {b : Box} (h : b.empty = false) (d : Fin 3) :
    (b.r2c d).low = b.low ∧ (b.r2c d).order = b.order ∧
    ∀ e, (b.r2c d).size.get e = if e = d then b.size.get d / 2 + 1 else b.size.get e := by
  unfold Box.r2c
  rw [h]
  refine ⟨rfl, rfl, fun e => ?_⟩
  simp only [Bool.false_eq_true, if_false, Box.size_get, A3.get_set]
  split
  · rename_i h; subst h; omega
  · rfl

theorem SameLines.r2c {b : Box} (h : b.empty = false) (d : Fin 3) : SameLines b (b.r2c d) d := by
  obtain ⟨h1, h2, h3⟩ := r2c_fields h d
  refine ⟨h1, h2, fun e he => by rw [h3, if_neg he], ?_⟩
  have := Box.empty_false_iff.1 h d
  rw [h3, if_pos rfl, Box.size_get]; omega

theorem dir_cases {o : A3 (Fin 3)} (h : IsOrder o) (d : Fin 3) : d = o.x ∨ d = o.y ∨ d = o.z := by
  obtain ⟨x, y, z⟩ := o
  unfold IsOrder at h
  revert d x y z
  decide

theorem lineStride_eq (b : Box) (d : Fin 3) : lineStride b d =
    if d = b.order.x then 1 else if d = b.order.y then b.osize 0 else b.osize 0 * b.osize 1 := rfl

theorem howMany_eq (b : Box) (d : Fin 3) : howMany b d =
    if d = b.order.x then b.osize 1 * b.osize 2 else if d = b.order.y then b.osize 0 else b.osize 0 * b.osize 1 := rfl

theorem numBlocks_eq (b : Box) (d : Fin 3) : numBlocks b d = if d = b.order.y then b.osize 2 else 1 := rfl

theorem lineStride_same {b c : Box} {d : Fin 3} (ho : IsOrder b.order) (h : SameLines b c d) : lineStride c d = lineStride b d := by
  have e0 : c.osize 0 = c.size.get b.order.x := by simp [Box.osize, h.order]
  have e1 : c.osize 1 = c.size.get b.order.y := by simp [Box.osize, h.order]
  have g0 : b.osize 0 = b.size.get b.order.x := by simp [Box.osize]
  have g1 : b.osize 1 = b.size.get b.order.y := by simp [Box.osize]
  rw [lineStride_eq, lineStride_eq, h.order, e0, e1, g0, g1]
  rcases dir_cases ho d with hd | hd | hd
  · rw [if_pos hd, if_pos hd]
  · have n1 : d ≠ b.order.x := by rw [hd]; exact fun h => ho.1 h.symm
    rw [if_neg n1, if_neg n1, if_pos hd, if_pos hd, h.size _ n1.symm]
  · have n1 : d ≠ b.order.x := by rw [hd]; exact fun h => ho.2.1 h.symm
    have n2 : d ≠ b.order.y := by rw [hd]; exact fun h => ho.2.2 h.symm
    rw [if_neg n1, if_neg n1, if_neg n2, if_neg n2, h.size _ n1.symm, h.size _ n2.symm]

theorem offset_set {b : Box} (ho : IsOrder b.order) (d : Fin 3) (q : A3 Int) (v : Int) :
    b.offset (q.set d v) = b.offset q + (v - q.get d) * lineStride b d := by
  rw [Box.offset_eq, Box.offset_eq]
  rw [lineStride_eq]
  simp only [A3.get_set]
  obtain ⟨o1, o2, o3⟩ := ho
  rcases dir_cases ⟨o1, o2, o3⟩ d with hd | hd | hd <;> subst hd
  · simp only [o1.symm, o2.symm, if_true, if_false]; ring
  · simp only [o1, o1.symm, o3.symm, if_true, if_false]; ring
  · simp only [o2, o2.symm, o3, o3.symm, if_true, if_false]; ring

theorem mem_set {b : Box} {d : Fin 3} {q : A3 Int} (hq : q ∈ b) {v : Int} (h0 : b.low d ≤ v) (h1 : v ≤ b.high d) : q.set d v ∈ b := by
  rw [Box.mem_def] at hq ⊢
  intro e
  rw [A3.get_set]
  split
  · rename_i h; subst h; exact ⟨h0, h1⟩
  · exact hq e

theorem mem_same {b c : Box} {d : Fin 3} (h : SameLines b c d) {q : A3 Int} (hq : q ∈ b) (hd : q.get d = b.low.get d) : q ∈ c := by
  rw [Box.mem_def] at hq ⊢
  intro e
  have hs := h.size e
  have hp := h.pos
  have hl := h.low
  have := hq e
  simp only [Box.size_get, hl] at hs hp ⊢
  by_cases he : e = d
  · subst he; omega
  · have := hs he; omega

/-! ## The first entries of the lines -/

/-- The index triple at the begin of line `p` of block `blk`. -/
def face (b : Box) (d : Fin 3) (blk p : Int) : A3 Int :=
  if d = b.order.x then b.at (p / b.osize 1) (p % b.osize 1) 0
  else if d = b.order.y then b.at blk 0 p
  else b.at 0 (p / b.osize 0) (p % b.osize 0)

theorem at_same {b c : Box} {d : Fin 3} (h : SameLines b c d) (i j k : Int) : b.at i j k = c.at i j k := by
  unfold Box.at
  rw [h.low, h.order]

theorem osize_pos {b : Box} (h : b.empty = false) (d : Fin 3) : 0 < b.osize d := by
  have := Box.empty_false_iff.1 h (b.order.get d)
  simp only [Box.osize, Box.size_get]; omega

theorem face_offset {b c : Box} (ho : IsOrder b.order) {d : Fin 3} (h : SameLines b c d) (blk p : Int) {dist block : Int}
    (hd : dist = if d = b.order.x then c.size.get d else 1) (hb : d = b.order.y → block = c.osize 0 * c.osize 1)
    (hblk : 0 ≤ blk ∧ blk < numBlocks b d) : c.offset (face b d blk p) = blk * block + p * dist := by
  have hoc : IsOrder c.order := by rw [h.order]; exact ho
  have hs := h.size
  have e0 : c.osize 0 = c.size.get b.order.x := by simp [Box.osize, h.order]
  have e1 : c.osize 1 = c.size.get b.order.y := by simp [Box.osize, h.order]
  have g0 : b.osize 0 = b.size.get b.order.x := by simp [Box.osize]
  have g1 : b.osize 1 = b.size.get b.order.y := by simp [Box.osize]
  obtain ⟨o1, o2, o3⟩ := ho
  rw [numBlocks_eq] at hblk
  unfold face
  rcases dir_cases ⟨o1, o2, o3⟩ d with hdir | hdir | hdir
  · rw [if_pos hdir, at_same h, Box.offset_at_self hoc, hd, if_pos hdir]
    have n1 : d ≠ b.order.y := by rw [hdir]; exact o1
    rw [if_neg n1] at hblk
    have : blk = 0 := by omega
    subst this
    rw [e0, e1, hs _ n1.symm, g1, ← hdir]
    have := Int.emod_add_mul_ediv p (b.size.get b.order.y)
    rw [mul_comm (p / _), add_comm (b.size.get b.order.y * _), this]
    ring
  · have n1 : d ≠ b.order.x := by rw [hdir]; exact fun h => o1 h.symm
    rw [if_neg n1, if_pos hdir, at_same h, Box.offset_at_self hoc, hd, if_neg n1, hb hdir]
    ring
  · have n1 : d ≠ b.order.x := by rw [hdir]; exact fun h => o2 h.symm
    have n2 : d ≠ b.order.y := by rw [hdir]; exact fun h => o3 h.symm
    rw [if_neg n1, if_neg n2, at_same h, Box.offset_at_self hoc, hd, if_neg n1]
    rw [if_neg n2] at hblk
    have : blk = 0 := by omega
    subst this
    rw [e0, hs _ n1.symm, g0]
    have := Int.emod_add_mul_ediv p (b.size.get b.order.x)
    rw [zero_mul, zero_add, mul_comm (p / _), add_comm (b.size.get b.order.x * _), this]
    ring

theorem div_range {a n m : Int} (hm : 0 < m) (h : 0 ≤ a ∧ a < n * m) : (0 ≤ a / m ∧ a / m < n) ∧ 0 ≤ a % m ∧ a % m < m :=
  ⟨⟨Int.ediv_nonneg h.1 hm.le, (Int.ediv_lt_iff_lt_mul hm).2 h.2⟩, Int.emod_nonneg _ hm.ne', Int.emod_lt_of_pos _ hm⟩

theorem face_mem {b : Box} (ho : IsOrder b.order) (hb : b.empty = false) {d : Fin 3} {blk p : Int}
    (hblk : 0 ≤ blk ∧ blk < numBlocks b d) (hp : 0 ≤ p ∧ p < howMany b d) :
    face b d blk p ∈ b ∧ (face b d blk p).get d = b.low.get d := by
  have p0 := osize_pos hb 0
  have p1 := osize_pos hb 1
  have p2 := osize_pos hb 2
  rw [numBlocks_eq] at hblk
  rw [howMany_eq] at hp
  unfold face
  obtain ⟨o1, o2, o3⟩ := ho
  rcases dir_cases ⟨o1, o2, o3⟩ d with hdir | hdir | hdir
  · rw [if_pos hdir] at hp ⊢
    obtain ⟨q1, q2⟩ := div_range p1 (by rw [mul_comm] at hp; exact hp)
    refine ⟨(Box.mem_at ⟨o1, o2, o3⟩).2 ⟨_, _, _, q1, q2, ⟨le_rfl, p0⟩, rfl⟩, ?_⟩
    rw [hdir, b.at_x ⟨o1, o2, o3⟩, add_zero]
  · have n1 : d ≠ b.order.x := by rw [hdir]; exact fun h => o1 h.symm
    rw [if_pos hdir] at hblk
    rw [if_neg n1, if_pos hdir] at hp ⊢
    refine ⟨(Box.mem_at ⟨o1, o2, o3⟩).2 ⟨_, _, _, hblk, ⟨le_rfl, p1⟩, hp, rfl⟩, ?_⟩
    rw [hdir, b.at_y ⟨o1, o2, o3⟩, add_zero]
  · have n1 : d ≠ b.order.x := by rw [hdir]; exact fun h => o2 h.symm
    have n2 : d ≠ b.order.y := by rw [hdir]; exact fun h => o3 h.symm
    rw [if_neg n1, if_neg n2] at hp ⊢
    obtain ⟨q1, q2⟩ := div_range p0 (by rw [mul_comm] at hp; exact hp)
    refine ⟨(Box.mem_at ⟨o1, o2, o3⟩).2 ⟨_, _, _, ⟨le_rfl, p2⟩, q1, q2, rfl⟩, ?_⟩
    rw [hdir, b.at_z, add_zero]

theorem face_surj {b : Box} (ho : IsOrder b.order) {d : Fin 3} {q : A3 Int} (hq : q ∈ b) (hd : q.get d = b.low.get d) :
    ∃ blk p, (0 ≤ blk ∧ blk < numBlocks b d) ∧ (0 ≤ p ∧ p < howMany b d) ∧ face b d blk p = q := by
  obtain ⟨i, j, k, hi, hj, hk, rfl⟩ := (Box.mem_at ho).1 hq
  rw [numBlocks_eq, howMany_eq]
  unfold face
  rcases dir_cases ho d with hdir | hdir | hdir
  · have n1 : d ≠ b.order.y := by rw [hdir]; exact ho.1
    rw [hdir, b.at_x ho] at hd
    refine ⟨0, i * b.osize 1 + j, by rw [if_neg n1]; omega, ?_, ?_⟩
    · rw [if_pos hdir, mul_comm (b.osize 1)]
      exact digits_lt hi hj
    · rw [if_pos hdir, Int.add_comm (i * _), Int.add_mul_ediv_right _ _ (by omega), Int.ediv_eq_zero_of_lt hj.1 hj.2,
        Int.add_mul_emod_self_right, Int.emod_eq_of_lt hj.1 hj.2, zero_add, show k = 0 by omega]
  · have n1 : d ≠ b.order.x := by rw [hdir]; exact fun h => ho.1 h.symm
    rw [hdir, b.at_y ho] at hd
    refine ⟨i, k, by rw [if_pos hdir]; exact hi, by rw [if_neg n1, if_pos hdir]; exact hk, ?_⟩
    rw [if_neg n1, if_pos hdir, show j = 0 by omega]
  · have n1 : d ≠ b.order.x := by rw [hdir]; exact fun h => ho.2.1 h.symm
    have n2 : d ≠ b.order.y := by rw [hdir]; exact fun h => ho.2.2 h.symm
    rw [hdir, b.at_z] at hd
    refine ⟨0, j * b.osize 0 + k, by rw [if_neg n2]; omega, ?_, ?_⟩
    · rw [if_neg n1, if_neg n2, mul_comm (b.osize 0)]
      exact digits_lt hj hk
    · rw [if_neg n1, if_neg n2, Int.add_comm (j * _), Int.add_mul_ediv_right _ _ (by omega), Int.ediv_eq_zero_of_lt hk.1 hk.2,
        Int.add_mul_emod_self_right, Int.emod_eq_of_lt hk.1 hk.2, zero_add, show i = 0 by omega]

theorem at_inj {b : Box} (ho : IsOrder b.order) {i j k i' j' k' : Int} (h : b.at i j k = b.at i' j' k') : i = i' ∧ j = j' ∧ k = k' := by
  have hz := congrArg (fun q => A3.get q b.order.z) h
  have hy := congrArg (fun q => A3.get q b.order.y) h
  have hx := congrArg (fun q => A3.get q b.order.x) h
  simp only [b.at_z, b.at_y ho, b.at_x ho] at hx hy hz
  omega

theorem face_inj {b : Box} (ho : IsOrder b.order) {d : Fin 3} {blk p blk' p' : Int}
    (hblk : 0 ≤ blk ∧ blk < numBlocks b d) (hblk' : 0 ≤ blk' ∧ blk' < numBlocks b d)
    (h : face b d blk p = face b d blk' p') : blk = blk' ∧ p = p' := by
  rw [numBlocks_eq] at hblk hblk'
  unfold face at h
  rcases dir_cases ho d with hdir | hdir | hdir
  · have n1 : d ≠ b.order.y := by rw [hdir]; exact ho.1
    rw [if_pos hdir, if_pos hdir] at h
    rw [if_neg n1] at hblk hblk'
    obtain ⟨h1, h2, -⟩ := at_inj ho h
    refine ⟨by omega, ?_⟩
    rw [← Int.emod_add_mul_ediv p (b.osize 1), ← Int.emod_add_mul_ediv p' (b.osize 1), h1, h2]
  · have n1 : d ≠ b.order.x := by rw [hdir]; exact fun h => ho.1 h.symm
    rw [if_neg n1, if_neg n1, if_pos hdir, if_pos hdir] at h
    obtain ⟨h1, -, h2⟩ := at_inj ho h
    exact ⟨h1, h2⟩
  · have n1 : d ≠ b.order.x := by rw [hdir]; exact fun h => ho.2.1 h.symm
    have n2 : d ≠ b.order.y := by rw [hdir]; exact fun h => ho.2.2 h.symm
    rw [if_neg n1, if_neg n1, if_neg n2, if_neg n2] at h
    rw [if_neg n2] at hblk hblk'
    obtain ⟨-, h1, h2⟩ := at_inj ho h
    refine ⟨by omega, ?_⟩
    rw [← Int.emod_add_mul_ediv p (b.osize 0), ← Int.emod_add_mul_ediv p' (b.osize 0), h1, h2]

/-! ## The lanes of an executor -/

theorem howMany_nonneg {b : Box} (hb : b.empty = false) (d : Fin 3) : 0 ≤ howMany b d := by
  have p0 := osize_pos hb 0
  have p1 := osize_pos hb 1
  have p2 := osize_pos hb 2
  unfold howMany
  split_ifs <;> positivity

theorem laneGroups_flatten {w : Nat} (hw : 0 < w) {b : Box} (hb : b.empty = false) (d : Fin 3) (ibase idist iblock obase odist oblock : Int) :
    (laneGroups w b d ibase idist iblock obase odist oblock).flatten = (loop (numBlocks b d)).flatMap fun i =>
      (loop (howMany b d)).map fun p => (ibase + i * iblock + p * idist, obase + i * oblock + p * odist) := by
  have key : ∀ f : Int → Int → Int × Int, ∀ l : List Int,
      (l.flatMap fun i => (groupsOf w (howMany b d)).map fun ps => ps.map (f i)).flatten =
        l.flatMap fun i => (loop (howMany b d)).map (f i) := by
    intro f l
    induction l with
    | nil => rfl
    | cons a t ih =>
      rw [List.flatMap_cons, List.flatMap_cons, List.flatten_append, ih, ← List.map_flatten, groupsOf_flatten hw (howMany_nonneg hb d)]
  exact key (fun i p => (ibase + i * iblock + p * idist, obase + i * oblock + p * odist)) _

theorem loop_nodup (n : Int) : (loop n).Nodup := by
  unfold loop
  exact List.Nodup.map (fun a b h => by simpa using h) List.nodup_range

/-- The positions of the first entries of the lines: once for each index triple at the lower bound in the direction. -/
theorem laneGroups_spec {w : Nat} (hw : 0 < w) {b ci co : Box} (hor : IsOrder b.order) (hb : b.empty = false) {d : Fin 3}
    (hi : SameLines b ci d) (ho : SameLines b co d) {ibase idist iblock obase odist oblock : Int}
    (id : idist = if d = b.order.x then ci.size.get d else 1) (ib : d = b.order.y → iblock = ci.osize 0 * ci.osize 1)
    (od : odist = if d = b.order.x then co.size.get d else 1) (ob : d = b.order.y → oblock = co.osize 0 * co.osize 1) :
    (∀ s ∈ (laneGroups w b d ibase idist iblock obase odist oblock).flatten,
      ∃ q : A3 Int, q ∈ b ∧ q.get d = b.low.get d ∧ s = (ibase + ci.offset q, obase + co.offset q)) ∧
    (∀ q : A3 Int, q ∈ b → q.get d = b.low.get d →
      (ibase + ci.offset q, obase + co.offset q) ∈ (laneGroups w b d ibase idist iblock obase odist oblock).flatten) ∧
    ((laneGroups w b d ibase idist iblock obase odist oblock).flatten.map Prod.snd).Nodup := by
  rw [laneGroups_flatten hw hb]
  have hoc : IsOrder co.order := by rw [ho.order]; exact hor
  have key : ∀ i p, (0 ≤ i ∧ i < numBlocks b d) →
      (ibase + i * iblock + p * idist, obase + i * oblock + p * odist) =
        (ibase + ci.offset (face b d i p), obase + co.offset (face b d i p)) := by
    intro i p h
    rw [face_offset hor hi i p id ib h, face_offset hor ho i p od ob h, add_assoc, add_assoc]
  refine ⟨?_, ?_, ?_⟩
  · intro s hs
    simp only [List.mem_flatMap, List.mem_map, mem_loop] at hs
    obtain ⟨i, hi', p, hp, rfl⟩ := hs
    obtain ⟨h1, h2⟩ := face_mem hor hb hi' hp
    exact ⟨_, h1, h2, key i p hi'⟩
  · intro q hq hd
    obtain ⟨i, p, h1, h2, rfl⟩ := face_surj hor hq hd
    simp only [List.mem_flatMap, List.mem_map, mem_loop]
    exact ⟨i, h1, p, h2, key i p h1⟩
  · rw [List.map_flatMap]
    have inj : ∀ i p i' p', (0 ≤ i ∧ i < numBlocks b d) → (0 ≤ i' ∧ i' < numBlocks b d) →
        (0 ≤ p ∧ p < howMany b d) → (0 ≤ p' ∧ p' < howMany b d) →
        obase + i * oblock + p * odist = obase + i' * oblock + p' * odist → i = i' ∧ p = p' := by
      intro i p i' p' h1 h2 h3 h4 he
      have k1 := congrArg Prod.snd (key i p h1)
      have k2 := congrArg Prod.snd (key i' p' h2)
      dsimp only at k1 k2
      rw [k1, k2] at he
      have m1 := face_mem hor hb h1 h3
      have m2 := face_mem hor hb h2 h4
      have := Box.offset_inj hoc (mem_same ho m1.1 m1.2) (mem_same ho m2.1 m2.2) (by omega)
      exact face_inj hor h1 h2 this
    rw [List.nodup_flatMap]
    refine ⟨fun i hi' => ?_, ?_⟩
    · rw [mem_loop] at hi'
      rw [List.map_map]
      refine List.Nodup.map_on ?_ (loop_nodup _)
      intro p hp p' hp' he
      rw [mem_loop] at hp hp'
      exact (inj i p i p' hi' hi' hp hp' he).2
    · refine (List.Pairwise.imp_of_mem ?_ (loop_nodup (numBlocks b d)))
      intro i i' h1 h2 hne
      rw [mem_loop] at h1 h2
      rw [Function.onFun, List.disjoint_left]
      intro a ha ha'
      rw [List.map_map] at ha ha'
      obtain ⟨p, hp, rfl⟩ := List.mem_map.1 ha
      obtain ⟨p', hp', he⟩ := List.mem_map.1 ha'
      rw [mem_loop] at hp hp'
      exact hne (inj i' p' i p h2 h1 hp' hp he).1.symm

/-! ## The executors -/

theorem readLine_box {c : Box} (hor : IsOrder c.order) {d : Fin 3} {src : List α} {base : Int} {G : A3 Int → α}
    (hG : Holds c src base G) {q : A3 Int} (hq : q ∈ c) (hd : q.get d = c.low.get d) :
    readLine src (base + c.offset q) (lineStride c d) (c.size.get d).toNat = some (lineOf c d G q) := by
  rw [Box.size_get]
  refine readLine_eq (g := fun i => G (q.set d (c.low d + i))) fun i hi => ?_
  have := hG _ (mem_set (d := d) (v := c.low d + i) hq (by omega) (by omega))
  rw [offset_set hor, hd] at this
  rw [← this]
  congr 1
  ring

theorem lineOf_set (c : Box) (d : Fin 3) (G : A3 Int → α) (q : A3 Int) (v : Int) : lineOf c d G (q.set d v) = lineOf c d G q := by
  unfold lineOf
  refine List.map_congr_left fun i _ => ?_
  congr 1
  ext e
  simp only [A3.get_set]
  split <;> rfl

theorem set_self (q : A3 Int) (d : Fin 3) (v : Int) : (q.set d v).set d (q.get d) = q := by
  ext e
  simp only [A3.get_set]
  split
  · rename_i h; rw [h]
  · rfl

theorem apart_box {co : Box} (hor : IsOrder co.order) {d : Fin 3} {base : Int} {len : Nat} (h0 : 0 ≤ base)
    (hlen : base + co.count ≤ len) {L : List Int}
    (hL : ∀ s ∈ L, ∃ q : A3 Int, q ∈ co ∧ q.get d = co.low.get d ∧ s = base + co.offset q) :
    Apart (lineStride co d) (co.size.get d).toNat len L := by
  have hset : ∀ q : A3 Int, q.get d = co.low.get d → ∀ i : Nat,
      base + co.offset q + (i : Int) * lineStride co d = base + co.offset (q.set d (co.low.get d + i)) := by
    intro q hq i
    rw [offset_set hor, hq]; ring
  refine ⟨?_, ?_⟩
  · intro s hs i hi
    obtain ⟨q, hq, hd, rfl⟩ := hL s hs
    rw [hset q hd]
    rw [Box.size_get] at hi
    have := Box.offset_range hor (mem_set (d := d) (v := co.low d + i) hq (by omega) (by omega))
    omega
  · intro s hs s' hs' i hi i' hi' he
    obtain ⟨q, hq, hd, rfl⟩ := hL s hs
    obtain ⟨q', hq', hd', rfl⟩ := hL s' hs'
    rw [hset q hd, hset q' hd'] at he
    rw [Box.size_get] at hi hi'
    have he2 := Box.offset_inj hor (mem_set (d := d) (v := co.low d + i) hq (by omega) (by omega))
      (mem_set (d := d) (v := co.low d + i') hq' (by omega) (by omega)) (by omega)
    have h1 := congrArg (fun r => A3.get r d) he2
    simp only [A3.get_set_self] at h1
    have h2 : q = q' := by
      rw [← set_self q d (co.low d + i), he2, hd, ← hd', set_self]
    rw [h2]
    exact ⟨rfl, by omega⟩

/-- Reading lines of one box and writing lines of another: the values of the second box are the transforms of those of the first. -/
theorem exec_out {w : Nat} (hw : 0 < w) {b ci co : Box} (hor : IsOrder b.order) (hb : b.empty = false) {d : Fin 3}
    (hi : SameLines b ci d) (ho : SameLines b co d) {ibase idist iblock obase odist oblock : Int}
    (id : idist = if d = b.order.x then ci.size.get d else 1) (ib : d = b.order.y → iblock = ci.osize 0 * ci.osize 1)
    (od : odist = if d = b.order.x then co.size.get d else 1) (ob : d = b.order.y → oblock = co.osize 0 * co.osize 1)
    {T : Int × Int → List α → Res (List β)} {t : List α → Nat → β}
    (hT : ∀ s v, v.length = (ci.size.get d).toNat → T s v = .ok ((List.range (co.size.get d).toNat).map (t v)))
    {src : List α} {dst : List β} {G : A3 Int → α} (hG : Holds ci src ibase G) (h0 : 0 ≤ obase) (hlen : obase + co.count ≤ dst.length) :
    ∃ r, runOut T (ci.size.get d).toNat (co.size.get d).toNat (lineStride b d) src
        (laneGroups w b d ibase idist iblock obase odist oblock) dst = .ok r ∧ r.length = dst.length ∧
      Holds co r obase (along ci d t G) ∧ ∀ a, (a < obase ∨ obase + co.count ≤ a) → rd r a = rd dst a := by
  obtain ⟨s1, s2, s3⟩ := laneGroups_spec hw hor hb hi ho (ibase := ibase) (obase := obase) id ib od ob
  have oi : IsOrder ci.order := by rw [hi.order]; exact hor
  have oo : IsOrder co.order := by rw [ho.order]; exact hor
  have hline : ∀ q : A3 Int, q ∈ b → q.get d = b.low.get d →
      readLine src (ibase + ci.offset q) (lineStride b d) (ci.size.get d).toNat = some (lineOf ci d G q) := by
    intro q hq hd
    rw [← lineStride_same hor hi]
    exact readLine_box oi hG (mem_same hi hq hd) (by rw [hi.low]; exact hd)
  obtain ⟨r, r1, r2, r3, r4⟩ := runOut_ok hT (line := fun s => (readLine src s.1 (lineStride b d) (ci.size.get d).toNat).getD [])
    (laneGroups w b d ibase idist iblock obase odist oblock) dst
    (fun s hs => by
      obtain ⟨q, hq, hd, rfl⟩ := s1 s hs
      rw [hline q hq hd]
      refine ⟨rfl, ?_⟩
      simp [lineOf, Box.size_get])
    (by
      rw [← lineStride_same hor ho]
      refine apart_box oo h0 hlen fun s hs => ?_
      obtain ⟨u, hu, rfl⟩ := List.mem_map.1 hs
      obtain ⟨q, hq, hd, rfl⟩ := s1 u hu
      exact ⟨q, mem_same ho hq hd, by rw [ho.low]; exact hd, rfl⟩)
    s3
  refine ⟨r, r1, r2, ?_, ?_⟩
  · intro p hp
    have hpd : co.low.get d ≤ p.get d ∧ p.get d ≤ co.high.get d := (Box.mem_def.1 hp d)
    set q := p.set d (co.low.get d) with hqdef
    have hqd : q.get d = b.low.get d := by rw [hqdef, A3.get_set_self, ho.low]
    have hq : q ∈ b := by
      have hp' := Box.mem_def.1 hp
      rw [Box.mem_def]
      intro e
      by_cases he : e = d
      · subst he
        have := Box.empty_false_iff.1 hb e
        rw [hqd]; omega
      · rw [hqdef, A3.get_set_ne _ _ he]
        have h1 := ho.size e he
        have h2 := hp' e
        rw [Box.size_get, Box.size_get, ho.low] at h1
        rw [ho.low] at h2
        omega
    have h3 := r3 _ (s2 q hq hqd) (p.get d - co.low.get d).toNat (by rw [Box.size_get]; omega)
    dsimp only at h3
    rw [hline q hq hqd, ← lineStride_same hor ho] at h3
    have hoff : obase + co.offset q + ((p.get d - co.low.get d).toNat : Int) * lineStride co d = obase + co.offset p := by
      have := offset_set oo d q (p.get d)
      rw [hqdef, set_self, ← hqdef] at this
      rw [this, hqd, ← ho.low, Int.toNat_of_nonneg (by omega)]
      ring
    rw [hoff] at h3
    rw [h3]
    unfold along
    rw [hqdef, Option.getD_some, lineOf_set, hi.low, ho.low]
  · intro a ha
    refine r4 a fun s hs i hi' hne => ?_
    obtain ⟨q, hq, hd, rfl⟩ := s1 s hs
    have hm : q ∈ co := mem_same ho hq hd
    rw [Box.size_get] at hi'
    have hr := Box.offset_range oo (mem_set (d := d) (v := co.low d + i) hm (by omega) (by omega))
    rw [offset_set oo, hd, ho.low, add_sub_cancel_left] at hr
    rw [← lineStride_same hor ho] at hne
    dsimp only at hne
    omega

/-- Lines of one box transformed in place, in any order. -/
theorem pass_ok {b : Box} (hor : IsOrder b.order) {d : Fin 3} {base : Int} {groups : List (List (Int × Int))}
    (s1 : ∀ s ∈ groups.flatten, ∃ q : A3 Int, q ∈ b ∧ q.get d = b.low.get d ∧ s = (base + b.offset q, base + b.offset q))
    (s2 : ∀ q : A3 Int, q ∈ b → q.get d = b.low.get d → (base + b.offset q, base + b.offset q) ∈ groups.flatten)
    (s3 : (groups.flatten.map Prod.snd).Nodup)
    {T : Int × Int → List α → Res (List α)} {t : List α → Nat → α}
    (hT : ∀ s v, v.length = (b.size.get d).toNat → T s v = .ok ((List.range (b.size.get d).toNat).map (t v)))
    {mem : List α} {G : A3 Int → α} (hG : Holds b mem base G) (h0 : 0 ≤ base) (hlen : base + b.count ≤ mem.length) :
    ∃ r, runInPlace T (b.size.get d).toNat (lineStride b d) groups mem = .ok r ∧ r.length = mem.length ∧
      Holds b r base (along b d t G) ∧ ∀ a, (a < base ∨ base + b.count ≤ a) → rd r a = rd mem a := by
  obtain ⟨r, r1, r2, r3, r4⟩ := runInPlace_ok hT (line := fun s => (readLine mem s.1 (lineStride b d) (b.size.get d).toNat).getD [])
    groups mem
    (fun s hs' => by
      obtain ⟨q, hq, hd, rfl⟩ := s1 s hs'
      rw [readLine_box hor hG hq hd]
      refine ⟨rfl, rfl, ?_⟩
      simp [lineOf, Box.size_get])
    (by
      refine apart_box hor h0 hlen fun s hs' => ?_
      obtain ⟨u, hu, rfl⟩ := List.mem_map.1 hs'
      obtain ⟨q, hq, hd, rfl⟩ := s1 u hu
      exact ⟨q, hq, hd, rfl⟩)
    s3
  refine ⟨r, r1, r2, ?_, ?_⟩
  · intro p hp
    have hpd : b.low.get d ≤ p.get d ∧ p.get d ≤ b.high.get d := (Box.mem_def.1 hp d)
    set q := p.set d (b.low.get d) with hqdef
    have hqd : q.get d = b.low.get d := by rw [hqdef, A3.get_set_self]
    have hq : q ∈ b := mem_set hp le_rfl (by omega)
    have h3 := r3 _ (s2 q hq hqd) (p.get d - b.low.get d).toNat (by rw [Box.size_get]; omega)
    dsimp only at h3
    rw [readLine_box hor hG hq hqd] at h3
    have hoff : base + b.offset q + ((p.get d - b.low.get d).toNat : Int) * lineStride b d = base + b.offset p := by
      have := offset_set hor d q (p.get d)
      rw [hqdef, set_self, ← hqdef] at this
      rw [this, hqd, Int.toNat_of_nonneg (by omega)]
      ring
    rw [hoff] at h3
    rw [h3]
    unfold along
    rw [hqdef, Option.getD_some, lineOf_set]
  · intro a ha
    refine r4 a fun s hs' i hi' hne => ?_
    obtain ⟨q, hq, hd, rfl⟩ := s1 s hs'
    rw [Box.size_get] at hi'
    have hr := Box.offset_range hor (mem_set (d := d) (v := b.low d + i) hq (by omega) (by omega))
    rw [offset_set hor, hd, add_sub_cancel_left] at hr
    dsimp only at hne
    omega

theorem exec_in_place {w : Nat} (hw : 0 < w) {b : Box} (hor : IsOrder b.order) (hb : b.empty = false) {d : Fin 3} {base : Int}
    {T : Int × Int → List α → Res (List α)} {t : List α → Nat → α}
    (hT : ∀ s v, v.length = (b.size.get d).toNat → T s v = .ok ((List.range (b.size.get d).toNat).map (t v)))
    {mem : List α} {G : A3 Int → α} (hG : Holds b mem base G) (h0 : 0 ≤ base) (hlen : base + b.count ≤ mem.length) :
    ∃ r, execC2C w T b d base mem = .ok r ∧ r.length = mem.length ∧
      Holds b r base (along b d t G) ∧ ∀ a, (a < base ∨ base + b.count ≤ a) → rd r a = rd mem a := by
  have hs := SameLines.refl hb d
  obtain ⟨s1, s2, s3⟩ := laneGroups_spec hw hor hb hs hs (ibase := base) (obase := base)
    (idist := if d = b.order 0 then b.size d else 1) (odist := if d = b.order 0 then b.size d else 1)
    (iblock := b.osize 0 * b.osize 1) (oblock := b.osize 0 * b.osize 1) rfl (fun _ => rfl) rfl (fun _ => rfl)
  exact pass_ok hor s1 s2 s3 hT hG h0 hlen

/-- Starts of lines from two nested loops. -/
theorem nest_spec {b : Box} (hor : IsOrder b.order) {d : Fin 3} {base P J : Int} {addr : Int → Int → Int} {f : Int → Int → A3 Int}
    (hf : ∀ p j, (0 ≤ p ∧ p < P) → (0 ≤ j ∧ j < J) →
      f p j ∈ b ∧ (f p j).get d = b.low.get d ∧ addr p j = base + b.offset (f p j))
    (hs : ∀ q : A3 Int, q ∈ b → q.get d = b.low.get d → ∃ p j, (0 ≤ p ∧ p < P) ∧ (0 ≤ j ∧ j < J) ∧ f p j = q)
    (hi : ∀ p j p' j', f p j = f p' j' → p = p' ∧ j = j') :
    let groups := (((loop P).flatMap fun p => (loop J).map fun j => addr p j).map fun s => [(s, s)])
    (∀ s ∈ groups.flatten, ∃ q : A3 Int, q ∈ b ∧ q.get d = b.low.get d ∧ s = (base + b.offset q, base + b.offset q)) ∧
    (∀ q : A3 Int, q ∈ b → q.get d = b.low.get d → (base + b.offset q, base + b.offset q) ∈ groups.flatten) ∧
    (groups.flatten.map Prod.snd).Nodup := by
  intro groups
  have hfl : groups.flatten = (((loop P).flatMap fun p => (loop J).map fun j => addr p j).map fun s => (s, s)) := by
    show (List.map _ _).flatten = _
    generalize ((loop P).flatMap fun p => (loop J).map fun j => addr p j) = l
    induction l with
    | nil => rfl
    | cons a t ih => rw [List.map_cons, List.flatten_cons, ih]; rfl
  rw [hfl]
  refine ⟨?_, ?_, ?_⟩
  · intro s hs'
    simp only [List.mem_map, List.mem_flatMap, mem_loop] at hs'
    obtain ⟨a, ⟨p, hp, j, hj, rfl⟩, rfl⟩ := hs'
    obtain ⟨h1, h2, h3⟩ := hf p j hp hj
    exact ⟨_, h1, h2, by rw [h3]⟩
  · intro q hq hd
    obtain ⟨p, j, hp, hj, rfl⟩ := hs q hq hd
    simp only [List.mem_map, List.mem_flatMap, mem_loop]
    exact ⟨_, ⟨p, hp, j, hj, rfl⟩, by rw [(hf p j hp hj).2.2]⟩
  · rw [List.map_map]
    have : (Prod.snd ∘ fun s : Int => (s, s)) = id := rfl
    rw [this, List.map_id]
    have inj : ∀ p j p' j', (0 ≤ p ∧ p < P) → (0 ≤ j ∧ j < J) → (0 ≤ p' ∧ p' < P) → (0 ≤ j' ∧ j' < J) →
        addr p j = addr p' j' → p = p' ∧ j = j' := by
      intro p j p' j' h1 h2 h3 h4 he
      obtain ⟨a1, -, a3⟩ := hf p j h1 h2
      obtain ⟨b1, -, b3⟩ := hf p' j' h3 h4
      exact hi _ _ _ _ (Box.offset_inj hor a1 b1 (by omega))
    rw [List.nodup_flatMap]
    refine ⟨fun p hp => ?_, ?_⟩
    · rw [mem_loop] at hp
      refine List.Nodup.map_on ?_ (loop_nodup _)
      intro j hj j' hj' he
      rw [mem_loop] at hj hj'
      exact (inj p j p j' hp hj hp hj' he).2
    · refine (List.Pairwise.imp_of_mem ?_ (loop_nodup P))
      intro p p' h1 h2 hne
      rw [mem_loop] at h1 h2
      rw [Function.onFun, List.disjoint_left]
      intro a ha ha'
      obtain ⟨j, hj, rfl⟩ := List.mem_map.1 ha
      obtain ⟨j', hj', he⟩ := List.mem_map.1 ha'
      rw [mem_loop] at hj hj'
      exact hne (inj p' j' p j h2 hj' h1 hj he).1.symm

end Verif
