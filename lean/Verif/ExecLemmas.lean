import Verif.Exec
import Verif.PackLemmas

namespace Verif
variable {α β : Type}

/-! ## Lists -/

theorem mapM_ok {ε γ δ : Type} {f : γ → Except ε δ} {g : γ → δ} : ∀ {l : List γ}, (∀ x ∈ l, f x = .ok (g x)) → l.mapM f = .ok (l.map g)
  | [], _ => rfl
  | a :: t, h => by
    rw [List.mapM_cons, h a (by simp), mapM_ok (l := t) (fun x hx => h x (by simp [hx]))]
    rfl

theorem mapM_some {γ δ : Type} {f : γ → Option δ} {g : γ → δ} : ∀ {l : List γ}, (∀ x ∈ l, f x = some (g x)) → l.mapM f = some (l.map g)
  | [], _ => rfl
  | a :: t, h => by
    rw [List.mapM_cons, h a (by simp), mapM_some (l := t) (fun x hx => h x (by simp [hx]))]
    rfl

theorem readLine_eq {mem : List α} {start stride : Int} {n : Nat} {g : Nat → α}
    (h : ∀ i < n, rd mem (start + i * stride) = some (g i)) : readLine mem start stride n = some ((List.range n).map g) :=
  mapM_some fun i hi => h i (List.mem_range.1 hi)

theorem readLine_some {mem : List α} {start stride : Int} {n : Nat}
    (h : ∀ i < n, 0 ≤ start + (i : Int) * stride ∧ start + (i : Int) * stride < mem.length) :
    ∃ v, readLine mem start stride n = some v ∧ v.length = n := by
  by_cases hn : n = 0
  · subst hn; exact ⟨[], rfl, rfl⟩
  · obtain ⟨x, -⟩ := rd_some_iff.2 (h 0 (by omega))
    have hg : ∀ i < n, rd mem (start + (i : Int) * stride) = some ((rd mem (start + (i : Int) * stride)).getD x) := by
      intro i hi
      obtain ⟨y, hy⟩ := rd_some_iff.2 (h i hi)
      rw [hy]; rfl
    exact ⟨_, readLine_eq hg, by simp⟩

theorem readLine_congr {m m' : List α} {start stride : Int} {n : Nat}
    (h : ∀ i < n, rd m (start + (i : Int) * stride) = rd m' (start + (i : Int) * stride)) :
    readLine m start stride n = readLine m' start stride n := by
  unfold readLine
  have : ∀ l : List Nat, (∀ i ∈ l, i < n) → (l.mapM fun (i : Nat) => rd m (start + i * stride)) = l.mapM fun (i : Nat) => rd m' (start + i * stride) := by
    intro l
    induction l with
    | nil => intro _; rfl
    | cons a t ih =>
      intro hl
      rw [List.mapM_cons, List.mapM_cons, h a (hl a (by simp)), ih fun i hi => hl i (by simp [hi])]
  exact this _ fun i hi => List.mem_range.1 hi

/-! ## One group -/

/-- The output positions of the lines are in bounds and different. -/
structure Apart (stride : Int) (m : Nat) (len : Nat) (L : List Int) : Prop where
  bounds : ∀ s ∈ L, ∀ i < m, 0 ≤ s + (i : Int) * stride ∧ s + (i : Int) * stride < len
  inj : ∀ s ∈ L, ∀ s' ∈ L, ∀ i < m, ∀ i' < m, s + (i : Int) * stride = s' + (i' : Int) * stride → s = s' ∧ i = i'

theorem Apart.mono {stride : Int} {m len : Nat} {L L' : List Int} (h : Apart stride m len L) (hs : ∀ s ∈ L', s ∈ L) :
    Apart stride m len L' :=
  ⟨fun s hm => h.bounds s (hs s hm), fun s h1 s' h2 => h.inj s (hs s h1) s' (hs s' h2)⟩

theorem zip_map_self {γ δ : Type} (f : γ → δ) : ∀ l : List γ, l.zip (l.map f) = l.map fun x => (x, f x)
  | [] => rfl
  | a :: t => by simp [zip_map_self f t]

theorem runGroup_ok {T : Int × Int → List α → Res (List β)} {t : List α → Nat → β} {n m : Nat} {stride : Int}
    (hT : ∀ s v, v.length = n → T s v = .ok ((List.range m).map (t v)))
    {src : List α} {dst : List β} {lanes : List (Int × Int)} {line : Int × Int → List α}
    (hr : ∀ s ∈ lanes, readLine src s.1 stride n = some (line s) ∧ (line s).length = n)
    (ha : Apart stride m dst.length (lanes.map Prod.snd))
    (hu : ∀ s ∈ lanes, ∀ s' ∈ lanes, s.2 = s'.2 → s = s') :
    ∃ r, runGroup T n m stride src lanes dst = .ok r ∧ r.length = dst.length ∧
      (∀ s ∈ lanes, ∀ i < m, rd r (s.2 + (i : Int) * stride) = some (t (line s) i)) ∧
      ∀ a, (∀ s ∈ lanes, ∀ i < m, s.2 + (i : Int) * stride ≠ a) → rd r a = rd dst a := by
  have h1 : lanes.mapM (runLine T n stride src) = .ok (lanes.map fun s => (List.range m).map (t (line s))) := by
    refine mapM_ok fun s hs => ?_
    unfold runLine
    rw [(hr s hs).1]
    exact hT s _ (hr s hs).2
  unfold runGroup
  rw [h1]
  simp only [bind, Except.bind]
  rw [zip_map_self]
  have hm : ∀ w : Int × Option β, w ∈ ((List.range m).flatMap fun (i : Nat) =>
      ((lanes.map fun s => (s, (List.range m).map (t (line s)))).map fun e => (e.1.2 + (i : Int) * stride, e.2[i]?))) ↔
      ∃ i < m, ∃ s ∈ lanes, w = (s.2 + (i : Int) * stride, some (t (line s) i)) := by
    intro w
    simp only [List.mem_flatMap, List.mem_range, List.mem_map]
    constructor
    · rintro ⟨i, hi, e, ⟨s, hs, rfl⟩, rfl⟩
      refine ⟨i, hi, s, hs, ?_⟩
      dsimp only
      rw [List.getElem?_map, List.getElem?_range hi]
      rfl
    · rintro ⟨i, hi, s, hs, rfl⟩
      refine ⟨i, hi, _, ⟨s, hs, rfl⟩, ?_⟩
      dsimp only
      rw [List.getElem?_map, List.getElem?_range hi]
      rfl
  obtain ⟨r, e1, e2, e3, e4⟩ := writeAll_ok _ dst
    (fun w hw => by
      obtain ⟨i, hi, s, hs, rfl⟩ := (hm w).1 hw
      exact ⟨rfl, ha.bounds s.2 (List.mem_map.2 ⟨s, hs, rfl⟩) i hi⟩)
    (fun w hw u hu' h => by
      obtain ⟨i, hi, s, hs, rfl⟩ := (hm w).1 hw
      obtain ⟨i', hi', s', hs', rfl⟩ := (hm u).1 hu'
      obtain ⟨g1, g2⟩ := ha.inj s.2 (List.mem_map.2 ⟨s, hs, rfl⟩) s'.2 (List.mem_map.2 ⟨s', hs', rfl⟩) i hi i' hi' h
      rw [g2, hu s hs s' hs' g1])
  refine ⟨r, e1, e2, ?_, ?_⟩
  · intro s hs i hi
    exact e3 _ ((hm _).2 ⟨i, hi, s, hs, rfl⟩)
  · intro a h
    refine e4 a fun w hw => ?_
    obtain ⟨i, hi, s, hs, rfl⟩ := (hm w).1 hw
    exact h s hs i hi

/-! ## All the groups -/

theorem runOut_ok {T : Int × Int → List α → Res (List β)} {t : List α → Nat → β} {n m : Nat} {stride : Int}
    (hT : ∀ s v, v.length = n → T s v = .ok ((List.range m).map (t v))) {src : List α} {line : Int × Int → List α} :
    ∀ (groups : List (List (Int × Int))) (dst : List β),
    (∀ s ∈ groups.flatten, readLine src s.1 stride n = some (line s) ∧ (line s).length = n) →
    Apart stride m dst.length (groups.flatten.map Prod.snd) → (groups.flatten.map Prod.snd).Nodup →
    ∃ r, runOut T n m stride src groups dst = .ok r ∧ r.length = dst.length ∧
      (∀ s ∈ groups.flatten, ∀ i < m, rd r (s.2 + (i : Int) * stride) = some (t (line s) i)) ∧
      ∀ a, (∀ s ∈ groups.flatten, ∀ i < m, s.2 + (i : Int) * stride ≠ a) → rd r a = rd dst a := by
  intro groups
  induction groups with
  | nil =>
    intro dst _ _ _
    exact ⟨dst, rfl, rfl, by simp, fun _ _ => rfl⟩
  | cons g rest ih =>
    intro dst hr ha hn
    rw [List.flatten_cons, List.map_append, List.nodup_append] at hn
    obtain ⟨n1, n2, n3⟩ := hn
    have hg : ∀ s ∈ g, s ∈ (g :: rest).flatten := fun s hs => by simp [hs]
    have hrest : ∀ s ∈ rest.flatten, s ∈ (g :: rest).flatten := fun s hs => by
      rw [List.flatten_cons, List.mem_append]; exact Or.inr hs
    obtain ⟨r1, e1, e2, e3, e4⟩ := runGroup_ok hT (fun s hs => hr s (hg s hs))
      (ha.mono fun s hs => by
        obtain ⟨u, hu, rfl⟩ := List.mem_map.1 hs
        exact List.mem_map.2 ⟨u, hg u hu, rfl⟩)
      (fun s hs s' hs' h => (List.inj_on_of_nodup_map n1 hs hs' h))
    obtain ⟨r2, f1, f2, f3, f4⟩ := ih r1 (fun s hs => hr s (hrest s hs))
      (by
        rw [e2]
        refine ha.mono fun s hs => ?_
        obtain ⟨u, hu, rfl⟩ := List.mem_map.1 hs
        exact List.mem_map.2 ⟨u, hrest u hu, rfl⟩) n2
    refine ⟨r2, ?_, f2.trans e2, ?_, ?_⟩
    · unfold runOut
      rw [e1]
      exact f1
    · intro s hs i hi
      rw [List.flatten_cons, List.mem_append] at hs
      rcases hs with hs | hs
      · rw [f4, e3 s hs i hi]
        intro s' hs' i' hi' heq
        have m1 : s.2 ∈ (g :: rest).flatten.map Prod.snd := List.mem_map.2 ⟨s, hg s hs, rfl⟩
        have m2 : s'.2 ∈ (g :: rest).flatten.map Prod.snd := List.mem_map.2 ⟨s', hrest s' hs', rfl⟩
        exact n3 s.2 (List.mem_map.2 ⟨s, hs, rfl⟩) s'.2 (List.mem_map.2 ⟨s', hs', rfl⟩) (ha.inj _ m2 _ m1 i' hi' i hi heq).1.symm
      · exact f3 s hs i hi
    · intro a h
      rw [f4 a fun s hs => h s (hrest s hs), e4 a fun s hs => h s (hg s hs)]

theorem runInPlace_ok {T : Int × Int → List α → Res (List α)} {t : List α → Nat → α} {n : Nat} {stride : Int}
    (hT : ∀ s v, v.length = n → T s v = .ok ((List.range n).map (t v))) {line : Int × Int → List α} :
    ∀ (groups : List (List (Int × Int))) (mem : List α),
    (∀ s ∈ groups.flatten, s.1 = s.2 ∧ readLine mem s.1 stride n = some (line s) ∧ (line s).length = n) →
    Apart stride n mem.length (groups.flatten.map Prod.snd) → (groups.flatten.map Prod.snd).Nodup →
    ∃ r, runInPlace T n stride groups mem = .ok r ∧ r.length = mem.length ∧
      (∀ s ∈ groups.flatten, ∀ i < n, rd r (s.2 + (i : Int) * stride) = some (t (line s) i)) ∧
      ∀ a, (∀ s ∈ groups.flatten, ∀ i < n, s.2 + (i : Int) * stride ≠ a) → rd r a = rd mem a := by
  intro groups
  induction groups with
  | nil =>
    intro dst _ _ _
    exact ⟨dst, rfl, rfl, by simp, fun _ _ => rfl⟩
  | cons g rest ih =>
    intro mem hr ha hn
    rw [List.flatten_cons, List.map_append, List.nodup_append] at hn
    obtain ⟨n1, n2, n3⟩ := hn
    have hg : ∀ s ∈ g, s ∈ (g :: rest).flatten := fun s hs => by simp [hs]
    have hrest : ∀ s ∈ rest.flatten, s ∈ (g :: rest).flatten := fun s hs => by
      rw [List.flatten_cons, List.mem_append]; exact Or.inr hs
    have far : ∀ s ∈ g, ∀ s' ∈ rest.flatten, ∀ i < n, ∀ i' < n, s.2 + (i : Int) * stride ≠ s'.2 + (i' : Int) * stride := by
      intro s hs s' hs' i hi i' hi' heq
      have m1 : s.2 ∈ (g :: rest).flatten.map Prod.snd := List.mem_map.2 ⟨s, hg s hs, rfl⟩
      have m2 : s'.2 ∈ (g :: rest).flatten.map Prod.snd := List.mem_map.2 ⟨s', hrest s' hs', rfl⟩
      exact n3 s.2 (List.mem_map.2 ⟨s, hs, rfl⟩) s'.2 (List.mem_map.2 ⟨s', hs', rfl⟩) (ha.inj _ m1 _ m2 i hi i' hi' heq).1
    obtain ⟨r1, e1, e2, e3, e4⟩ := runGroup_ok hT (fun s hs => (hr s (hg s hs)).2)
      (ha.mono fun s hs => by
        obtain ⟨u, hu, rfl⟩ := List.mem_map.1 hs
        exact List.mem_map.2 ⟨u, hg u hu, rfl⟩)
      (fun s hs s' hs' h => (List.inj_on_of_nodup_map n1 hs hs' h))
    obtain ⟨r2, f1, f2, f3, f4⟩ := ih r1
      (fun s hs => by
        obtain ⟨q1, q2, q3⟩ := hr s (hrest s hs)
        refine ⟨q1, ?_, q3⟩
        rw [← q2]
        refine readLine_congr fun i hi => e4 _ fun s' hs' i' hi' => ?_
        rw [q1]
        exact far s' hs' s hs i' hi' i hi)
      (by
        rw [e2]
        refine ha.mono fun s hs => ?_
        obtain ⟨u, hu, rfl⟩ := List.mem_map.1 hs
        exact List.mem_map.2 ⟨u, hrest u hu, rfl⟩) n2
    refine ⟨r2, ?_, f2.trans e2, ?_, ?_⟩
    · unfold runInPlace
      rw [e1]
      exact f1
    · intro s hs i hi
      rw [List.flatten_cons, List.mem_append] at hs
      rcases hs with hs | hs
      · rw [f4 _ fun s' hs' i' hi' => (far s hs s' hs' i hi i' hi').symm, e3 s hs i hi]
      · exact f3 s hs i hi
    · intro a h
      rw [f4 a fun s hs => h s (hrest s hs), e4 a fun s hs => h s (hg s hs)]

/-! ## The groups cover all the transforms once -/

theorem loopBy_full {w : Nat} (hw : 0 < w) (num : Int) : ∀ (c : Nat) (p : Int), 0 ≤ p → num - p = c →
    ((loopBy w (num - (w - 1)) p).map fun p => (loop w).map (p + ·)).flatten ++
      (if (num - p) % w > 0 then (loop ((num - p) % w)).map (num - (num - p) % w + ·) else []) = loopFrom p num := by
  intro c
  induction c using Nat.strong_induction_on with
  | _ c ih =>
    intro p hp hc
    unfold loopBy
    by_cases h : p < num - (w - 1)
    · rw [if_pos ⟨hw, h⟩]
      rw [List.map_cons, List.flatten_cons, List.append_assoc]
      have hmod : (num - p) % (w : Int) = (num - (p + w)) % (w : Int) := by
        rw [show num - (p + (w : Int)) = num - p - w by ring, Int.sub_emod_right]
      rw [hmod, ih (c - w) (by omega) (p + w) (by omega) (by omega)]
      unfold loopFrom loop
      rw [show (num - p).toNat = w + (num - (p + w)).toNat by omega, List.range_add, List.map_append, List.map_append]
      congr 1
      rw [List.map_map, List.map_map, List.map_map]
      refine List.map_congr_left fun k _ => ?_
      simp only [Function.comp_apply, Int.ofNat_eq_natCast]
      push_cast; ring
    · rw [if_neg (fun hh => h hh.2), List.map_nil, List.flatten_nil, List.nil_append]
      have : (num - p) % (w : Int) = num - p := Int.emod_eq_of_lt (by omega) (by omega)
      rw [this]
      unfold loopFrom
      split
      · rw [show num - (num - p) = p by ring]
      · rw [show num - p = 0 by omega]; rfl

theorem groupsOf_flatten {w : Nat} (hw : 0 < w) {num : Int} (hn : 0 ≤ num) : (groupsOf w num).flatten = loop num := by
  have h := loopBy_full hw num num.toNat 0 le_rfl (by omega)
  rw [sub_zero] at h
  unfold groupsOf
  rw [List.flatten_append]
  have hf : loopFrom 0 num = loop num := by
    unfold loopFrom
    rw [sub_zero]
    simp
  rw [← hf, ← h]
  congr 1
  split <;> simp

end Verif
