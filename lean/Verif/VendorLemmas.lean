import Verif.Vendor
import Verif.FftwLemmas

namespace Verif
variable {α β : Type}

/-! ## Loops over blocks -/

theorem runInPlace_append {T : Int × Int → List α → Res (List α)} {n : Nat} {stride : Int} : ∀ (g h : List (List (Int × Int))) (mem : List α),
    runInPlace T n stride (g ++ h) mem = (runInPlace T n stride g mem).bind (runInPlace T n stride h)
  | [], _, _ => rfl
  | x :: t, h, mem => by
    simp only [List.cons_append, runInPlace, bind]
    cases runGroup T n n stride mem x mem with
    | error e => rfl
    | ok m => exact runInPlace_append t h m

theorem runInPlace_fold {γ : Type} {T : Int × Int → List α → Res (List α)} {n : Nat} {stride : Int} (g : γ → List (List (Int × Int))) :
    ∀ (l : List γ) (mem : List α), l.foldlM (fun m i => runInPlace T n stride (g i) m) mem = runInPlace T n stride (l.flatMap g) mem
  | [], _ => rfl
  | x :: t, mem => by
    rw [List.foldlM_cons, List.flatMap_cons, runInPlace_append]
    cases h : runInPlace T n stride (g x) mem with
    | error e => rfl
    | ok m => exact runInPlace_fold g t m

theorem runOut_append {T : Int × Int → List α → Res (List β)} {n m : Nat} {stride : Int} {src : List α} :
    ∀ (g h : List (List (Int × Int))) (dst : List β),
    runOut T n m stride src (g ++ h) dst = (runOut T n m stride src g dst).bind (runOut T n m stride src h)
  | [], _, _ => rfl
  | x :: t, h, dst => by
    simp only [List.cons_append, runOut, bind]
    cases runGroup T n m stride src x dst with
    | error e => rfl
    | ok r => exact runOut_append t h r

theorem runOut_fold {γ : Type} {T : Int × Int → List α → Res (List β)} {n m : Nat} {stride : Int} {src : List α} (g : γ → List (List (Int × Int))) :
    ∀ (l : List γ) (dst : List β), l.foldlM (fun r i => runOut T n m stride src (g i) r) dst = runOut T n m stride src (l.flatMap g) dst
  | [], _ => rfl
  | x :: t, dst => by
    rw [List.foldlM_cons, List.flatMap_cons, runOut_append]
    cases h : runOut T n m stride src (g x) dst with
    | error e => rfl
    | ok r => exact runOut_fold g t r

theorem singletons : ∀ {γ : Type} (l : List (List γ)), (∀ x ∈ l, x.length = 1) → l = l.flatten.map fun y => [y]
  | _, [], _ => rfl
  | _, x :: t, h => by
    obtain ⟨y, rfl⟩ := List.length_eq_one_iff.1 (h x (by simp))
    have := singletons t fun z hz => h z (List.mem_cons_of_mem _ hz)
    rw [List.flatten_cons, List.map_append, ← this]
    rfl

theorem groupsOf_one {num : Int} (hn : 0 ≤ num) : groupsOf 1 num = (loop num).map fun p => [p] := by
  have h := singletons (groupsOf 1 num) (by
    intro x hx
    unfold groupsOf at hx
    rw [if_neg (by simp), List.append_nil] at hx
    obtain ⟨p, -, rfl⟩ := List.mem_map.1 hx
    simp [loop])
  rw [groupsOf_flatten Nat.one_pos hn] at h
  exact h

theorem laneGroups_one {b : Box} (hb : b.empty = false) (d : Fin 3) (ibase idist iblock obase odist oblock : Int) :
    laneGroups 1 b d ibase idist iblock obase odist oblock = (loop (numBlocks b d)).flatMap fun i =>
      (loop (howMany b d)).map fun p => [(ibase + i * iblock + p * idist, obase + i * oblock + p * odist)] := by
  unfold laneGroups
  rw [groupsOf_one (howMany_nonneg hb d)]
  simp only [List.map_map]
  rfl

theorem box_size_pos {b : Box} (hb : b.empty = false) (d : Fin 3) : 0 < b.size d := by
  have := Box.empty_false_iff.1 hb d
  show 0 < b.size.get d
  rw [Box.size_get]; omega

/-! ## Complex data -/

theorem spread_one (n s : Int) : spread [(n, s)] = (loop n).map fun k => k * s := by
  simp only [spread, List.map_cons, List.map_nil, add_zero]
  rw [List.map_eq_flatMap]

theorem vexec1_run (v : Vendor) {b : Box} (hb : b.empty = false) (d : Fin 3) (T : Nat → Int × Int → List α → Res (List α)) (base : Int)
    (mem : List α) : (vexec1 b d).run v T base mem = execC2C 1 (T (b.size d).toNat) b d base mem := by
  have hp := box_size_pos hb d
  have hplan : (vexec1 b d).plan v = ⟨[(b.size d, lineStride b d)], howMany b d, if d = b.order 0 then b.size d else 1⟩ := by
    unfold VExec.plan vexec1
    rw [if_neg, if_pos rfl]
    dsimp only
    split <;> omega
  unfold VExec.run execC2C
  rw [hplan]
  dsimp only
  rw [laneGroups_one hb, ← runInPlace_fold]
  refine congrArg (fun f => List.foldlM f mem (loop (numBlocks b d))) (funext fun m => funext fun i => ?_)
  show (List.range 1).foldlM _ m = _
  rw [show List.range 1 = [0] from rfl, List.foldlM_cons]
  simp only [List.getElem?_cons_zero, Layout.starts, List.eraseIdx_cons_zero, List.reverse_nil, spread_one, linePass, List.map_map,
    List.foldlM_nil, bind, pure]
  show (Except.bind _ Except.pure) = _
  have : ∀ x : Res (List α), x.bind Except.pure = x := fun x => by cases x <;> rfl
  rw [this]
  rfl

theorem bind_pure' (x : Res (List α)) : x.bind Except.pure = x := by cases x <;> rfl

theorem layout_two (T : Nat → Int × Int → List α → Res (List α)) (n0 n1 s s1 e1 howmany dist base : Int) (hs : s1 = s * e1) (mem : List α) :
    Layout.run T ⟨[(n1, s), (n0, s1)], howmany, dist⟩ base mem = fftwRank2 T n0 n1 e1 howmany s dist base mem := by
  subst hs
  have h : ∀ n x : Int, (spread [(howmany, dist), (n, x)]).map (fun a => base + a) =
      (loop howmany).flatMap fun p => (loop n).map fun j => base + p * dist + j * x := by
    intro n x
    have : spread [(howmany, dist), (n, x)] = (loop howmany).flatMap fun k => (spread [(n, x)]).map fun y => k * dist + y := rfl
    rw [this, spread_one, List.map_flatMap]
    simp only [List.map_map]
    refine congrArg (fun f => List.flatMap f (loop howmany)) (funext fun p => ?_)
    refine List.map_congr_left fun j _ => ?_
    simp only [Function.comp_apply]; ring
  unfold Layout.run fftwRank2
  show (List.range 2).foldlM _ mem = _
  rw [show List.range 2 = [0, 1] from rfl, List.foldlM_cons]
  simp only [List.getElem?_cons_zero, List.getElem?_cons_succ, Layout.starts, List.eraseIdx_cons_zero, List.eraseIdx_cons_succ, List.reverse_singleton,
    List.foldlM_cons, List.foldlM_nil, h]
  have e1' : ((loop howmany).flatMap fun p => (loop n0).map fun j => base + p * dist + j * (s * e1)) =
      (loop howmany).flatMap fun p => (loop n0).map fun j => base + p * dist + s * (j * e1) := by
    refine congrArg (fun f => List.flatMap f (loop howmany)) (funext fun p => ?_)
    refine List.map_congr_left fun j _ => ?_
    ring
  have e2' : ((loop howmany).flatMap fun p => (loop n1).map fun j => base + p * dist + j * s) =
      (loop howmany).flatMap fun p => (loop n1).map fun j => base + p * dist + s * j := by
    refine congrArg (fun f => List.flatMap f (loop howmany)) (funext fun p => ?_)
    refine List.map_congr_left fun j _ => ?_
    ring
  rw [e1', e2']
  refine congrArg (Except.bind _) (funext fun m => ?_)
  exact bind_pure' _

theorem one_block (v : Vendor) {e : VExec} (h : e.blocks = 1) (T : Nat → Int × Int → List α → Res (List α)) (base : Int) (mem : List α) :
    e.run v T base mem = (e.plan v).run T base mem := by
  unfold VExec.run
  rw [h, show loop 1 = [0] from rfl, List.foldlM_cons, zero_mul, add_zero]
  simp only [List.foldlM_nil]
  exact bind_pure' _

theorem vexec2_run (v : Vendor) {b : Box} (hb : b.empty = false) (d1 d2 : Fin 3) (T : Nat → Int × Int → List α → Res (List α)) (base : Int)
    (mem : List α) : (vexec2 v b d1 d2).run v T base mem = fftwExec2 T b d1 d2 base mem := by
  have p1 := box_size_pos hb (min d1 d2)
  have p2 := box_size_pos hb (max d1 d2)
  have q0 := box_size_pos hb 0
  have q1 := box_size_pos hb 1
  have q2 := box_size_pos hb 2
  have p12 : b.size (min d1 d2) * b.size (max d1 d2) ≠ 0 := (mul_pos p1 p2).ne'
  unfold vexec2 fftwExec2
  dsimp only
  split
  · rw [one_block v rfl]
    unfold VExec.plan
    dsimp only
    rw [if_neg p12, if_neg p2.ne']
    cases v <;> dsimp only
    · rw [if_pos ⟨rfl, rfl⟩]; exact layout_two T _ _ _ _ _ _ _ _ rfl mem
    all_goals exact layout_two T _ _ _ _ _ _ _ _ (one_mul _).symm mem
  · split
    · rw [one_block v rfl]
      unfold VExec.plan
      dsimp only
      rw [if_neg one_ne_zero, if_neg p2.ne']
      cases v <;> dsimp only
      · rw [if_pos ⟨rfl, rfl⟩]; exact layout_two T _ _ _ _ _ _ _ _ rfl mem
      all_goals exact layout_two T _ _ _ _ _ _ _ _ (mul_comm _ _) mem
    · rw [one_block v rfl]
      unfold VExec.plan
      dsimp only
      rw [if_neg p1.ne', if_neg p2.ne']
      cases v <;> dsimp only
      · rw [if_neg (fun h => q2.ne' h.1)]; exact layout_two T _ _ _ _ _ _ _ _ rfl mem
      all_goals exact layout_two T _ _ _ _ _ _ _ _ (one_mul _).symm mem

theorem vexec3_run (v : Vendor) (b : Box) (T : Nat → Int × Int → List α → Res (List α)) (base : Int)
    (mem : List α) : (vexec3 b).run v T base mem = fftwExec3 T b base mem := by
  have h : ∀ n x n' x' : Int, (spread [(1, 1), (n, x), (n', x')]).map (fun a => base + a) =
      (loop n).flatMap fun p => (loop n').map fun j => base + (p * x + j * x') := by
    intro n x n' x'
    have : spread [(1, 1), (n, x), (n', x')] = (loop 1).flatMap fun k => ((loop n).flatMap fun p => (spread [(n', x')]).map fun y => p * x + y).map fun y => k * 1 + y := rfl
    rw [this, spread_one, show loop 1 = [0] from rfl, List.flatMap_cons, List.flatMap_nil, List.append_nil, List.map_map, List.map_flatMap]
    simp only [List.map_map]
    refine congrArg (fun f => List.flatMap f (loop n)) (funext fun p => ?_)
    refine List.map_congr_left fun j _ => ?_
    simp only [Function.comp_apply]; ring
  rw [one_block v rfl]
  unfold VExec.plan vexec3
  dsimp only
  rw [if_pos rfl]
  unfold Layout.run fftwExec3 fftwRank3
  show (List.range 3).foldlM _ mem = _
  rw [show List.range 3 = [0, 1, 2] from rfl]
  simp only [List.getElem?_cons_zero, List.getElem?_cons_succ, Layout.starts, List.eraseIdx_cons_zero, List.eraseIdx_cons_succ,
    List.foldlM_cons, List.foldlM_nil, List.reverse_cons, List.reverse_nil, List.nil_append, List.cons_append, h]
  have e : ∀ (n n' : Int) (f g : Int → Int → Int), (∀ p j, f p j = g p j) →
      ((loop n).flatMap fun p => (loop n').map fun j => f p j) = (loop n).flatMap fun p => (loop n').map fun j => g p j := by
    intro n n' f g hfg
    simp only [hfg]
  rw [e _ _ _ (fun i j => base + (i * b.size 1 + j) * b.size 0) (fun i j => by ring),
    e (b.size 2) (b.size 0) _ (fun i k => base + i * b.size 1 * b.size 0 + k) (fun i j => by ring),
    e (b.size 1) (b.size 0) _ (fun j k => base + j * b.size 0 + k) (fun i j => by ring), mul_comm (b.size 0) (b.size 1)]
  refine congrArg (Except.bind _) (funext fun m => ?_)
  refine congrArg (Except.bind _) (funext fun m => ?_)
  exact bind_pure' _

end Verif
