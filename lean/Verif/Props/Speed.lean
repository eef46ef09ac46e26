import Verif.Speed
import Verif.Props.Tails
import Verif.Props.Transform
import Verif.Props.Vector

/-!
# The benchmark speed3d (C85)

The benchmark reports the largest difference between the data and the data after the runs.  In exact arithmetic this is zero.
-/

namespace Verif
open Stock

/-! ## The boxes -/

section
variable {size : A3 Int} {n : Nat} {o : SpeedGrids} {gi go : A3 Int} {r2c : Option (Fin 3)}

theorem loopGrid_pos {g : A3 Int} (h : ∀ d, 0 < g.get d) : ∀ d, 0 < (loopGrid g).get d := by
  intro d
  have := h d
  fin_cases d <;> simp only [loopGrid, A3.get] at this ⊢ <;> omega

theorem loopGrid_length {g : A3 Int} (h : ∀ d, 0 < g.get d) (hp : gridProduct g = n) (w : Box) : (gridBoxes w (loopGrid g)).length = n := by
  rw [gridBoxes_length]
  have h0 := h 0
  have h1 := h 1
  have h2 := h 2
  simp only [A3.get] at h0 h1 h2
  have : ((g.x.toNat * g.y.toNat * g.z.toNat : Nat) : Int) = n := by
    push_cast
    rw [Int.toNat_of_nonneg h0.le, Int.toNat_of_nonneg h1.le, Int.toNat_of_nonneg h2.le]
    exact hp
  exact_mod_cast this

theorem loopGrid_none {g : A3 Int} {d : Fin 3} (h : g.get d ≤ 0) (w : Box) : (gridBoxes w (loopGrid g)).length = 0 := by
  rw [gridBoxes_length]
  have : (loopGrid g).get d = 0 := by
    fin_cases d <;> simp only [loopGrid, A3.get] at h ⊢ <;> omega
  fin_cases d <;> simp only [Fin.zero_eta, Fin.mk_one, Fin.reduceFinMk] at this <;> rw [this] <;> simp

/-- The complex world of the benchmark. -/
def speedOut (size : A3 Int) (r2c : Option (Fin 3)) : Box :=
  match r2c with
  | none => speedWorld size
  | some d => (speedWorld size).r2c d

theorem speedWorld_size (size : A3 Int) (d : Fin 3) : (speedWorld size).size.get d = size.get d := by
  fin_cases d <;> simp [speedWorld, Box.size, A3.get, A3.of]

theorem speedOut_facts (hs : ∀ d, 0 < size.get d) :
    (speedWorld size).empty = false ∧ ComplexWorld (speedWorld size) (speedOut size r2c) r2c ∧ (speedOut size r2c).order = defaultOrder := by
  have hb : ∀ d, (speedWorld size).low.get d = 0 ∧ (speedWorld size).high.get d = size.get d - 1 := by
    intro d
    fin_cases d <;> exact ⟨rfl, rfl⟩
  have he : (speedWorld size).empty = false := by
    rw [Box.empty_false_iff]
    intro d
    have := hs d
    have := hb d
    omega
  refine ⟨he, fun d => ?_, ?_⟩
  · cases r2c with
    | none => exact ⟨rfl, rfl⟩
    | some e =>
      simp only [speedOut, Box.r2c, he, Bool.false_eq_true, if_false]
      refine ⟨trivial, ?_⟩
      rw [A3.get_set]
      have hz : (speedWorld size).size e = (speedWorld size).high.get e - (speedWorld size).low.get e + 1 := Box.size_get _ e
      by_cases h : e = d
      · subst h
        rw [if_pos rfl, if_pos rfl, hz]
      · rw [if_neg (fun h' => h h'.symm), if_neg (fun h' => h (Option.some.inj h'))]
  · cases r2c with
    | none => rfl
    | some e => simp only [speedOut, Box.r2c, he, Bool.false_eq_true, if_false]; rfl

/-- C85: the boxes of the benchmark are a valid geometry if and only if all numbers of the two grids are positive and their products are the number of
ranks; another product is an exception, a negative number in a grid with the right product is undefined behaviour. -/
theorem C85_boxes (hs : ∀ d, 0 < size.get d) (hn : 0 < n) (hg : speedGrids (speedWorld size) n o = .ok (gi, go)) :
    ((gridProduct gi = n ∧ gridProduct go = n ∧ ∀ d, 0 < gi.get d ∧ 0 < go.get d) →
      ∃ bin bout, speedBoxes size n o r2c = .ok (bin, bout) ∧ bin.length = n ∧ Geometry bin bout r2c (speedWorld size) (speedOut size r2c)) ∧
    ((gridProduct gi ≠ n ∨ gridProduct go ≠ n) → speedBoxes size n o r2c = .error .runtime) ∧
    (gridProduct gi = n ∧ gridProduct go = n ∧ (∃ d, gi.get d < 0 ∨ go.get d < 0) → speedBoxes size n o r2c = .error .ub) := by
  have e : speedBoxes size n o r2c = if gridProduct gi ≠ n then .error .runtime else if gridProduct go ≠ n then .error .runtime else
      if (gridBoxes (speedWorld size) (loopGrid gi)).length < n ∨ (gridBoxes (speedOut size r2c) (loopGrid go)).length < n then .error .ub
      else .ok (gridBoxes (speedWorld size) (loopGrid gi), gridBoxes (speedOut size r2c) (loopGrid go)) := by
    unfold speedBoxes
    simp only [hg]
    rfl
  rw [e]
  obtain ⟨he, hc, ho⟩ := speedOut_facts (r2c := r2c) hs
  have hne : ∃ p : A3 Int, p ∈ speedWorld size := Box.empty_false_iff_mem.1 he
  refine ⟨fun ⟨h1, h2, h3⟩ => ?_, fun h => ?_, fun ⟨h1, h2, d, h3⟩ => ?_⟩
  · have l1 := loopGrid_length (fun d => (h3 d).1) h1 (speedWorld size)
    have l2 := loopGrid_length (fun d => (h3 d).2) h2 (speedOut size r2c)
    rw [if_neg (fun h => h h1), if_neg (fun h => h h2), if_neg (by omega)]
    have hsz : ∀ d, 0 ≤ (speedOut size r2c).size.get d := by
      intro d
      have q := hc d
      have z1 : (speedWorld size).high.get d - (speedWorld size).low.get d + 1 = size.get d := by
        rw [← speedWorld_size size d]; exact (Box.size_get _ d).symm
      have := hs d
      have z2 : (speedOut size r2c).size.get d = _ := Box.size_get (speedOut size r2c) d
      rw [z2, q.1, q.2]
      split <;> omega
    have hne' : ∃ p : A3 Int, p ∈ speedOut size r2c := by
      obtain ⟨p, hp⟩ := hne
      refine ⟨(speedOut size r2c).low, Box.mem_def.2 fun d => ⟨le_rfl, ?_⟩⟩
      have q := hc d
      have := Box.mem_def.1 hp d
      rw [q.1, q.2]
      split <;> omega
    have i1 := gridBoxes_inside (w := speedWorld size) (fun d => by rw [speedWorld_size]; exact (hs d).le) (loopGrid_pos fun d => (h3 d).1)
    have i2 := gridBoxes_inside (w := speedOut size r2c) hsz (loopGrid_pos fun d => (h3 d).2)
    have t1 := gridBoxes_tiles (speedWorld size) _ (loopGrid_pos fun d => (h3 d).1)
    have t2 := gridBoxes_tiles (speedOut size r2c) _ (loopGrid_pos fun d => (h3 d).2)
    have hord : IsOrder defaultOrder := by unfold IsOrder; decide
    have f1 := findWorld_tiled t1 (fun b hb => (i1 b hb).1) hne
    have f2 := findWorld_tiled t2 (fun b hb => (i2 b hb).1) hne'
    rw [← ho] at f2
    exact ⟨_, _, rfl, l1, by rw [l1, l2], f1, f2, t1, t2, hne, hc, ⟨_, hord, fun b hb => (i1 b hb).2⟩, ⟨_, hord, fun b hb => (i2 b hb).2.trans ho⟩⟩
  · by_cases h1 : gridProduct gi = n
    · rw [if_neg (fun h => h h1), if_pos (h.resolve_left fun h => h h1)]
    · rw [if_pos h1]
  · rw [if_neg (fun h => h h1), if_neg (fun h => h h2), if_pos]
    rcases h3 with h | h
    · left; rw [loopGrid_none h.le]; exact hn
    · right; rw [loopGrid_none h.le]; exact hn

end

/-! ## The runs in place -/

section
variable {α β : Type} {bin bout src dst : List Box} {need need' : Nat → Int} {nb k : Nat} {call : SpeedCall α β} {g : Nat → A3 Int → α} {G F : Field α β}
  {ms m0s m1s : List (Mem α β)}

def everyRank : Nat → Bool := fun _ => true

/-- What the benchmark asks of an object: `forward` with the full scaling and `backward` without one on its output, in place, give the data. -/
structure SpeedCalls (bin bout : List Box) (need : Nat → Int) (call : SpeedCall α β) (T : (Nat → A3 Int → α) → Nat → A3 Int → α) : Prop where
  there : ∀ k nb m0s g, 0 < nb → CallArrays bin bout false false need nb everyRank m0s (.inl g) →
    ∃ ms, call k true nb .full m0s = .ok ms ∧ Outcome bout nb m0s ms (.inl (T g)) ∧ Untouched bin bout nb everyRank m0s ms
  back : ∀ k nb m0s g, 0 < nb → CallArrays bout bin false false need nb everyRank m0s (.inl (T g)) →
    ∃ ms, call k false nb .none m0s = .ok ms ∧ Outcome bin nb m0s ms (.inl g) ∧ Untouched bout bin nb everyRank m0s ms

/-- After a call in place the next call finds its arrays. -/
theorem CallArrays.turn (ha : CallArrays src dst false false need nb everyRank m0s G) (hl : src.length = dst.length) (h : Outcome dst nb m0s ms F) :
    CallArrays dst src false false need nb everyRank ms F := by
  have get : ∀ (r : Nat) m, ms[r]? = some m → ∃ m0, m0s[r]? = some m0 ∧ Stays m0 m := by
    intro r m hm
    have hr : r < m0s.length := by rw [← h.ranks]; exact (List.getElem?_eq_some_iff.1 hm).1
    exact ⟨_, List.getElem?_eq_getElem hr, h.same r _ m (List.getElem?_eq_getElem hr) hm⟩
  refine ⟨by rw [h.ranks, ha.ranks, hl], ?_, ?_, ?_, ?_, fun r m hm j hj => ?_, ?_⟩
  · intro r m hm
    obtain ⟨m0, h0, st⟩ := get r m hm
    rw [st.input]; exact ha.input r m0 h0
  · intro r m hm
    obtain ⟨m0, h0, st⟩ := get r m hm
    rw [st.output.1]; exact ha.output r m0 h0
  · intro r m hm
    obtain ⟨m0, h0, st⟩ := get r m hm
    have := ha.outputSize r m0 h0
    simp only [everyRank, if_true]
    rw [st.output.2]; exact this
  · intro r m hm
    obtain ⟨m0, h0, st⟩ := get r m hm
    have := ha.inputSize r m0 h0
    simp only [everyRank, if_true] at this
    rw [st.output.2]; exact this
  · simp only [everyRank, if_true]
    exact h.values r m hm j hj
  · intro r m hm
    obtain ⟨m0, h0, st⟩ := get r m hm
    rw [st.work]; exact ha.work r m0 h0

theorem newWork_get {zero : α} {n : Nat → Nat} {r : Nat} {m : Mem α β} (h : (newWork zero n ms)[r]? = some m) :
    ∃ m0, ms[r]? = some m0 ∧ m = ⟨m0.input, m0.output, List.replicate (n r) zero⟩ := by
  unfold newWork at h
  rw [List.getElem?_mapIdx] at h
  cases h0 : ms[r]? with
  | none => rw [h0] at h; cases h
  | some m0 => rw [h0] at h; exact ⟨m0, rfl, (Option.some.inj h).symm⟩

theorem newWork_some {zero : α} {n : Nat → Nat} {r : Nat} {m0 : Mem α β} (h : ms[r]? = some m0) :
    (newWork zero n ms)[r]? = some ⟨m0.input, m0.output, List.replicate (n r) zero⟩ := by
  unfold newWork
  rw [List.getElem?_mapIdx, h]
  rfl

theorem CallArrays.newWork {zero : α} {n : Nat → Nat} {ri ro : Bool} {inplace : Nat → Bool} (ha : CallArrays src dst ri ro need nb inplace ms G)
    (hn : ∀ r, (nb : Int) * need' r ≤ n r) : CallArrays src dst ri ro need' nb inplace (newWork zero n ms) G := by
  refine ⟨by unfold Verif.newWork; rw [List.length_mapIdx, ha.ranks], ?_, ?_, ?_, ?_, ?_, ?_⟩ <;> intro r m hm <;> obtain ⟨m0, h0, rfl⟩ := newWork_get hm
  · exact ha.input r m0 h0
  · exact ha.output r m0 h0
  · exact ha.inputSize r m0 h0
  · exact ha.outputSize r m0 h0
  · exact ha.start r m0 h0
  · simpa using hn r

theorem CallArrays.fewer {nb' : Nat} {ri ro : Bool} {inplace : Nat → Bool} (ha : CallArrays src dst ri ro (fun _ => 0) nb inplace ms G) (h : nb' ≤ nb) :
    CallArrays src dst ri ro (fun _ => 0) nb' inplace ms G := by
  refine ⟨ha.ranks, ha.input, ha.output, fun r m hm => ?_, fun r m hm => ?_, fun r m hm j hj => ha.start r m hm j (by omega), fun r m hm => by simp⟩
  · exact (Nat.mul_le_mul_right _ h).trans (ha.inputSize r m hm)
  · exact (Nat.mul_le_mul_right _ h).trans (ha.outputSize r m hm)

variable {T : (Nat → A3 Int → α) → Nat → A3 Int → α}

theorem speedLoop_ok (hc : SpeedCalls bin bout need call T) (hl : bin.length = bout.length) (hnb : 0 < nb) : ∀ (runs k : Nat) (ms : List (Mem α β)),
    CallArrays bin bout false false need nb everyRank ms (.inl g) →
    ∃ ms', speedLoop call nb k runs ms = .ok ms' ∧ CallArrays bin bout false false need nb everyRank ms' (.inl g) := by
  intro runs
  induction runs with
  | zero => intro k ms h; exact ⟨ms, rfl, h⟩
  | succ runs ih =>
    intro k ms h
    obtain ⟨m1, e1, o1, -⟩ := hc.there k nb ms g hnb h
    have h1 := h.turn hl o1
    obtain ⟨m2, e2, o2, -⟩ := hc.back (k + 1) nb m1 g hnb h1
    obtain ⟨m3, e3, h3⟩ := ih (k + 2) m2 (h1.turn hl.symm o2)
    refine ⟨m3, ?_, h3⟩
    unfold speedLoop
    rw [e1]
    show (call (k + 1) false nb .none m1).bind _ = _
    rw [e2]
    exact e3

/-- The warm-up with one entry leaves the whole batch as it is. -/
theorem speedWarmup_ok {zero : α} {n : Nat → Nat} (hc : SpeedCalls bin bout need call T) (hl : bin.length = bout.length) (hnb : 0 < nb)
    (ho : ∀ b ∈ bin, IsOrder b.order) (hn : ∀ r, need r ≤ n r)
    (hroom : nb = 1 ∨ ∀ r, r < bin.length → (boxAt bout r).points.card ≤ (boxAt bin r).points.card)
    (ha : CallArrays bin bout false false (fun _ => 0) nb everyRank ms (.inl g)) :
    ∃ ms', speedWarmup zero call n ms = .ok ms' ∧ CallArrays bin bout false false (fun _ => 0) nb everyRank ms' (.inl g) := by
  have hn1 : ∀ r, ((1 : Nat) : Int) * need r ≤ n r := fun r => by simpa using hn r
  have a0 := (ha.fewer (nb' := 1) hnb).newWork (zero := zero) hn1
  obtain ⟨m1, e1, o1, u1⟩ := hc.there 0 1 _ g Nat.one_pos a0
  have a1 := (a0.turn hl o1).newWork (zero := zero) hn1
  obtain ⟨m2, e2, o2, u2⟩ := hc.back 1 1 _ g Nat.one_pos a1
  have a2 := a1.turn hl.symm o2
  refine ⟨m2, ?_, ?_⟩
  · unfold speedWarmup
    rw [e1]
    exact e2
  have get : ∀ (r : Nat) m, m2[r]? = some m → r < bin.length ∧ ∃ m0, ms[r]? = some m0 ∧ m.input = m0.input ∧ Alike m.output m0.output ∧
      ∀ a : Int, (max (boxAt bin r).points.card (boxAt bout r).points.card : Nat) ≤ a → m.output.rd a = m0.output.rd a := by
    intro r m hm
    have hr : r < bin.length := by rw [← a2.ranks]; exact (List.getElem?_eq_some_iff.1 hm).1
    have r2 : r < (newWork zero n m1).length := by rw [← o2.ranks]; exact (List.getElem?_eq_some_iff.1 hm).1
    have s2 := o2.same r _ m (List.getElem?_eq_getElem r2) hm
    have t2 := u2 r _ m (List.getElem?_eq_getElem r2) hm
    obtain ⟨x1, g1, q1⟩ := newWork_get (List.getElem?_eq_getElem r2)
    rw [q1] at s2 t2
    have r1 : r < (newWork zero n ms).length := by rw [← o1.ranks]; exact (List.getElem?_eq_some_iff.1 g1).1
    have s1 := o1.same r _ x1 (List.getElem?_eq_getElem r1) g1
    have t1 := u1 r _ x1 (List.getElem?_eq_getElem r1) g1
    obtain ⟨x0, g0, q0⟩ := newWork_get (List.getElem?_eq_getElem r1)
    rw [q0] at s1 t1
    refine ⟨hr, x0, g0, s2.input.trans s1.input, ⟨s2.output.1.trans s1.output.1, s2.output.2.trans s1.output.2⟩, fun a h => ?_⟩
    have w1 : writable bin bout 1 (everyRank r) r = max (boxAt bin r).points.card (boxAt bout r).points.card := by simp [writable, everyRank]
    have w2 : writable bout bin 1 (everyRank r) r = max (boxAt bin r).points.card (boxAt bout r).points.card := by simp [writable, everyRank, Nat.max_comm]
    exact (t2.2 a (by rw [w2]; exact h)).trans (t1.2 a (by rw [w1]; exact h))
  refine ⟨a2.ranks, a2.input, a2.output, ?_, ?_, ?_, ?_⟩
  · intro r m hm
    obtain ⟨-, m0, h0, -, al, -⟩ := get r m hm
    have := ha.inputSize r m0 h0
    simp only [everyRank, if_true] at this ⊢
    rw [al.2]; exact this
  · intro r m hm
    obtain ⟨-, m0, h0, -, al, -⟩ := get r m hm
    rw [al.2]; exact ha.outputSize r m0 h0
  · intro r m hm j hj
    obtain ⟨hr, m0, h0, -, al, un⟩ := get r m hm
    by_cases hj0 : j = 0
    · subst hj0
      exact a2.start r m hm 0 Nat.one_pos
    · have hle := (hroom.resolve_left (by omega)) r hr
      have hst := ha.start r m0 h0 j hj
      simp only [everyRank, if_true] at hst ⊢
      intro p hp
      rw [← hst p hp]
      apply un
      rw [Nat.max_eq_left hle]
      have := (Box.offset_range (ho _ (boxAt_mem hr)) hp).1
      have h1 : (1 : Int) * (boxAt bin r).points.card ≤ j * (boxAt bin r).points.card := by
        apply Int.mul_le_mul_of_nonneg_right <;> omega
      omega
  · intro r m hm
    simp

/-- The arrays of the benchmark: the data and room for the larger box. -/
structure SpeedData (bin bout : List Box) (nb : Nat) (size : Nat → Nat) (data : List (List α)) : Prop where
  ranks : data.length = bin.length
  lengths : ∀ (r : Nat) x, data[r]? = some x → x.length = nb * (boxAt bin r).points.card
  size : ∀ r, r < bin.length → size r = max (boxAt bin r).points.card (boxAt bout r).points.card

/-- The data are at the beginning of the arrays. -/
def SpeedKept (data : List (List α)) (ms : List (Mem α β)) : Prop :=
  ms.length = data.length ∧ ∀ (r : Nat) x m, data[r]? = some x → ms[r]? = some m → ∃ l, m.output = .inl (x ++ l)

theorem speedArrays_get {zero : α} {size : Nat → Nat} {data : List (List α)} {r : Nat} {m : Mem α β} (h : (speedArrays (β := β) zero size data)[r]? = some m) :
    ∃ x, data[r]? = some x ∧ m = ⟨.inl [], .inl (x ++ List.replicate (size r - x.length) zero), []⟩ := by
  unfold speedArrays at h
  rw [List.getElem?_mapIdx] at h
  cases h0 : data[r]? with
  | none => rw [h0] at h; cases h
  | some x => rw [h0] at h; exact ⟨x, rfl, (Option.some.inj h).symm⟩

/-- The program returns and the data are there again. -/
theorem speedInPlace_ok [Inhabited α] [Inhabited β] {zero : α} {n size : Nat → Nat} {w : Box} {runs : Nat} {data : List (List α)} (hc : SpeedCalls bin bout need call T)
    (hl : bin.length = bout.length) (ht : Tiles bin w) (ho : ∀ b ∈ bin, IsOrder b.order) (hnb : 0 < nb) (hn : ∀ r, need r ≤ n r)
    (hroom : nb = 1 ∨ ∀ r, r < bin.length → (boxAt bout r).points.card ≤ (boxAt bin r).points.card) (hd : SpeedData bin bout nb size data) :
    ∃ ms, speedInPlace zero call n size nb runs data = .ok ms ∧ SpeedKept data ms := by
  set m0s : List (Mem α β) := speedArrays zero (fun r => nb * size r) data with hm0
  have len : m0s.length = bin.length := by rw [hm0]; unfold speedArrays; rw [List.length_mapIdx, hd.ranks]
  have sz : ∀ (r : Nat) m, m0s[r]? = some m → r < bin.length ∧ m.output.size = nb * max (boxAt bin r).points.card (boxAt bout r).points.card := by
    intro r m hm
    have hr : r < bin.length := by rw [← len]; exact (List.getElem?_eq_some_iff.1 hm).1
    obtain ⟨x, hx, rfl⟩ := speedArrays_get hm
    have := hd.lengths r x hx
    have h2 : nb * (boxAt bin r).points.card ≤ nb * max (boxAt bin r).points.card (boxAt bout r).points.card := Nat.mul_le_mul_left _ (Nat.le_max_left ..)
    refine ⟨hr, ?_⟩
    simp only [Data.size, List.length_append, List.length_replicate]
    rw [hd.size r hr]
    omega
  have ha : HasArrays bin bout false false (fun _ => 0) nb everyRank m0s := by
    refine ⟨len, ?_, ?_, ?_, ?_, ?_⟩ <;> intro r m hm
    · obtain ⟨x, hx, rfl⟩ := speedArrays_get hm; rfl
    · obtain ⟨x, hx, rfl⟩ := speedArrays_get hm; rfl
    · simp only [everyRank, if_true]
      rw [(sz r m hm).2]; exact Nat.mul_le_mul_left _ (Nat.le_max_left ..)
    · rw [(sz r m hm).2]; exact Nat.mul_le_mul_left _ (Nat.le_max_right ..)
    · simp
  obtain ⟨G, hG, hA⟩ := ha.values ht ho (fun _ _ _ => rfl)
  obtain ⟨g, rfl⟩ : ∃ g, G = .inl g := by
    cases G with
    | inl g => exact ⟨g, rfl⟩
    | inr g => cases hG
  obtain ⟨m1, e1, h1⟩ := speedWarmup_ok (zero := zero) hc hl hnb ho hn hroom hA
  obtain ⟨m2, e2, h2⟩ := speedLoop_ok hc hl hnb runs 2 _ (h1.newWork (zero := zero) (need' := need) (n := fun r => nb * n r) (by
    intro r
    push_cast
    exact Int.mul_le_mul_of_nonneg_left (hn r) (by omega)))
  refine ⟨m2, ?_, by rw [h2.ranks, hd.ranks], fun r x m hx hm => ?_⟩
  · unfold speedInPlace
    rw [← hm0, e1]
    exact e2
  have hr : r < bin.length := by rw [← h2.ranks]; exact (List.getElem?_eq_some_iff.1 hm).1
  have hr0 : r < m0s.length := by rw [len]; exact hr
  have hx0 := List.getElem?_eq_getElem hr0
  obtain ⟨x', hx', q0⟩ := speedArrays_get hx0
  obtain rfl : x' = x := by rw [hx] at hx'; exact (Option.some.inj hx').symm
  have s0 := hA.start r _ hx0
  have s2 := h2.start r m hm
  simp only [everyRank, if_true] at s0 s2
  rw [q0] at s0
  have hlen := hd.lengths r x' hx
  have hout := h2.output r m hm
  obtain ⟨inp, out, wk⟩ := m
  cases out with
  | inr l => cases hout
  | inl l =>
    have hsz := h2.inputSize r _ hm
    simp only [everyRank, if_true, Data.size] at hsz
    refine ⟨l.drop x'.length, ?_⟩
    have key : l.take x'.length = x' := by
      apply List.ext_getElem? 
      intro a
      by_cases hlt : a < x'.length
      · rw [List.getElem?_take_of_lt hlt]
        have hb := ho _ (boxAt_mem hr)
        rw [hlen] at hlt
        have hcard : 0 < (boxAt bin r).points.card := by
          rcases Nat.eq_zero_or_pos (boxAt bin r).points.card with h | h
          · rw [h, Nat.mul_zero] at hlt; omega
          · exact h
        have hj : a / (boxAt bin r).points.card < nb := Nat.div_lt_of_lt_mul (by rwa [Nat.mul_comm] at hlt)
        obtain ⟨p, hp, e⟩ := Box.offset_surj hb (a := ((a % (boxAt bin r).points.card : Nat) : Int)) (by omega)
          (by rw [Box.count_eq_card]; exact_mod_cast Nat.mod_lt a hcard)
        have ea : ((a / (boxAt bin r).points.card : Nat) : Int) * (boxAt bin r).points.card + (boxAt bin r).offset p = a := by
          rw [e]
          have := Nat.div_add_mod a (boxAt bin r).points.card
          rw [Nat.mul_comm] at this
          exact_mod_cast this
        have t0 := s0 _ hj p hp
        have t2 := s2 _ hj p hp
        rw [ea] at t0 t2
        have t := t2.trans t0.symm
        rw [← hlen] at hlt
        simp only [Data.rd, rd, Int.natCast_nonneg, if_true, Int.toNat_natCast] at t
        rw [List.getElem?_append_left hlt, List.getElem?_eq_getElem hlt, List.getElem?_eq_getElem (by omega)] at t
        rw [List.getElem?_eq_getElem hlt, List.getElem?_eq_getElem (by omega)]
        simpa using t
      · rw [List.getElem?_eq_none (by simp; omega), List.getElem?_eq_none (by omega)]
    show (Sum.inl l : Data α β) = _
    conv_lhs => rw [← List.take_append_drop x'.length l, key]

end

theorem speedError_zero {α β : Type} [NormedAddCommGroup α] {data : List (List α)} {ms : List (Mem α β)} (h : SpeedKept data ms) : speedError data ms = 0 := by
  have fold : ∀ l : List ℝ, (∀ y ∈ l, y = 0) → l.foldl max 0 = 0 := by
    intro l
    induction l with
    | nil => intro _; rfl
    | cons y l ih =>
      intro hy
      rw [List.foldl_cons, hy y List.mem_cons_self, max_self]
      exact ih fun z hz => hy z (List.mem_cons_of_mem _ hz)
  apply fold
  intro y hy
  obtain ⟨⟨x, m⟩, hxm, hy⟩ := List.mem_flatMap.1 hy
  obtain ⟨r, hr⟩ := List.mem_iff_getElem?.1 hxm
  obtain ⟨hx, hm⟩ := List.getElem?_zip_eq_some.1 hr
  obtain ⟨l, e⟩ := h.2 r x m hx hm
  dsimp only at hy
  rw [e] at hy
  obtain ⟨z, hz, rfl⟩ := List.mem_map.1 hy
  obtain ⟨a, ha⟩ := List.mem_iff_getElem?.1 hz
  obtain ⟨h1, h2⟩ := List.getElem?_zip_eq_some.1 ha
  rw [List.getElem?_append_left (List.getElem?_eq_some_iff.1 h1).1, h1] at h2
  rw [Option.some.inj h2, sub_self, norm_zero]


/-! ## The stock backend -/

section
variable {bin bout : List Box} {wi wo : Box} {opts : Opts} {ob : Object} {w nb runs : Nat} {junk : Nat → Tag → Int × Int → Scratch}
  {inp : Nat → Tag → Int × Int → Arr ℂ}

/-- The calls of the c2c benchmark; the environment and the contents of the scratch arrays differ from call to call. -/
noncomputable def speedStock (ob : Object) (w : Nat) (junk : Nat → Tag → Int × Int → Scratch) (inp : Nat → Tag → Int × Int → Arr ℂ)
    (W : Nat → Bool → World ℂ ℝ) : SpeedCall ℂ ℝ := fun k fwd nb s ms =>
  perform ob (stockKernel w (junk k) (inp k)) (W k fwd) .same fwd nb everyRank s ms

/-- The calls of the r2r benchmark. -/
noncomputable def speedTrig (ob : Object) (w : Nat) (junk : Nat → Tag → Int × Int → Scratch) (inp : Nat → Tag → Int × Int → Arr ℂ)
    (ws : Nat → Tag → List ℝ) (W : Nat → Bool → World ℝ Unit) : SpeedCall ℝ Unit := fun k fwd nb s ms =>
  performR2R ob (trigKernel (stockKernel w (junk k) (inp k)) (ws k)) (W k fwd) fwd nb everyRank s ms

/-- The number of entries in `output` for one entry of the batch (speed3d.h:128). -/
def Object.largerBox (ob : Object) (r : Nat) : Nat := (max (ob.sizeOutbox r) (ob.sizeInbox r)).toNat

/-- The data of all the ranks, `nb` times their input boxes (speed3d.h:121). -/
def BatchOf {α : Type} (bin : List Box) (nb : Nat) (data : List (List α)) : Prop :=
  data.length = bin.length ∧ ∀ (r : Nat) x, data[r]? = some x → x.length = nb * (boxAt bin r).points.card

/-- One transform at a time or no output box larger than the input box of the same rank. -/
def WarmupFits (bin bout : List Box) (nb : Nat) : Prop :=
  nb = 1 ∨ ∀ r, r < bin.length → (boxAt bout r).points.card ≤ (boxAt bin r).points.card

theorem speedData {α : Type} {data : List (List α)} (hl : bout.length = bin.length) (e1 : ob.plan.in0 = bin) (e2 : ob.plan.out3 = bout)
    (hd : BatchOf bin nb data) : SpeedData bin bout nb ob.largerBox data := by
  refine ⟨hd.1, hd.2, fun r hr => ?_⟩
  unfold Object.largerBox Object.sizeOutbox Object.sizeInbox
  rw [e1, e2, countAt_eq hr, countAt_eq (hl ▸ hr)]
  omega

theorem bin_order {r2c : Option (Fin 3)} (geo : Geometry bin bout r2c wi wo) : ∀ b ∈ bin, IsOrder b.order := by
  obtain ⟨o, h1, h2⟩ := geo.orderIn
  intro b hb
  rw [h2 b hb]; exact h1

theorem everyRank_holds (src : List Box) : SourceHolds src everyRank := fun _ _ => .inl rfl

theorem speedStock_calls (S : StockC2C bin bout wi wo opts ob) (hw : 0 < w) {W : Nat → Bool → World ℂ ℝ} (hW : ∀ k fwd, WorldOk (W k fwd) ob.plan fwd) :
    SpeedCalls bin bout (ob.sizeWorkspace noWork) (speedStock ob w junk inp W)
      (fun g j p => ((Scaling.full.factor wi.count : ℝ) : ℂ) * dft3 true wi (g j) p) := by
  refine ⟨fun k nb m0s g hnb ha => C84_complex (fwd := true) S hw (hW k true) hnb ha (everyRank_holds _), fun k nb m0s g hnb ha => ?_⟩
  obtain ⟨ms, h1, h2, h3⟩ := C84_complex (fwd := false) (s := .none) (junk := junk k) (inp := inp k) S hw (hW k false) hnb ha (everyRank_holds _)
  refine ⟨ms, h1, h2.congr S.geo.tilesIn (by rw [ha.ranks]; exact S.geo.length) fun j _ p hp => ?_, h3⟩
  have hi := dft3_inv true wi (g j) hp
  rw [Bool.not_true] at hi
  have hf := inverse_factor (s := .full) (s' := .none) (.inl ⟨rfl, rfl⟩) (world_count_pos S.geo)
  simp only [Field.val]
  rw [dft3_mul, hi, ← mul_assoc, ← mul_assoc]
  have hf' : ((Scaling.none.factor wi.count : ℝ) : ℂ) * ((Scaling.full.factor wi.count : ℝ) : ℂ) * (wi.count : ℂ) = 1 := by exact_mod_cast hf
  rw [hf', one_mul]

/-- C85: the c2c benchmark returns, whatever the options, the batch and the number of runs, and reports the error zero. -/
theorem C85_complex_partial (S : StockC2C bin bout wi wo opts ob) (hw : 0 < w) {W : Nat → Bool → World ℂ ℝ} (hW : ∀ k fwd, WorldOk (W k fwd) ob.plan fwd)
    (hnb : 0 < nb) (hroom : WarmupFits bin bout nb) {data : List (List ℂ)} (hd : BatchOf bin nb data) :
    ∃ ms, speedInPlace 0 (speedStock ob w junk inp W) (fun r => (ob.sizeWorkspace noWork r).toNat) ob.largerBox nb runs data = .ok ms ∧
      SpeedKept data ms ∧ speedError data ms = 0 := by
  obtain ⟨-, -, -, e1, e2, -⟩ := makeFft3d_ok S.geo S.made
  obtain ⟨ms, h1, h2⟩ := speedInPlace_ok (zero := (0 : ℂ)) (runs := runs) (speedStock_calls (junk := junk) (inp := inp) S hw hW) S.geo.length.symm S.geo.tilesIn
    (bin_order S.geo) hnb (fun r => Int.self_le_toNat _) hroom (speedData S.geo.length e1 e2 hd)
  exact ⟨ms, h1, h2, speedError_zero h2⟩

theorem speedTrig_calls {z : Trig} (S : StockR2R z bin bout wi wo opts ob) (hw : 0 < w) {W : Nat → Bool → World ℝ Unit}
    (hW : ∀ k fwd, WorldOk (W k fwd) ob.plan fwd) {ws : Nat → Tag → List ℝ} (hws : ∀ k, EnoughWork ob (ws k)) :
    SpeedCalls bin bout (ob.sizeWorkspace trigWork) (speedTrig ob w junk inp ws W)
      (fun g j p => Scaling.full.factor (z.gain3 wi) * trig3 z true wi (g j) p) := by
  refine ⟨fun k nb m0s g hnb ha => C84_trig (fwd := true) S hw (hW k true) hnb (hws k) ha (everyRank_holds _), fun k nb m0s g hnb ha => ?_⟩
  obtain ⟨ms, h1, h2, h3⟩ := C84_trig (fwd := false) (s := .none) (junk := junk k) (inp := inp k) S hw (hW k false) hnb (hws k) ha (everyRank_holds _)
  refine ⟨ms, h1, h2.congr S.geo.tilesIn (by rw [ha.ranks]; exact S.geo.length) fun j _ p hp => ?_, h3⟩
  have hf := inverse_factor (s := .full) (s' := .none) (.inl ⟨rfl, rfl⟩) (gain3_pos S.object)
  simp only [Field.val]
  rw [trig3_mul, trig3_inv z wi S.defined (g j) hp, ← mul_assoc, ← mul_assoc]
  have hf' : Scaling.none.factor (z.gain3 wi) * Scaling.full.factor (z.gain3 wi) * ((z.gain3 wi : Nat) : ℝ) = 1 := by exact_mod_cast hf
  rw [hf', one_mul]

/-- C85: the r2r benchmark. -/
theorem C85_trig_partial {z : Trig} (S : StockR2R z bin bout wi wo opts ob) (hw : 0 < w) {W : Nat → Bool → World ℝ Unit}
    (hW : ∀ k fwd, WorldOk (W k fwd) ob.plan fwd) {ws : Nat → Tag → List ℝ} (hws : ∀ k, EnoughWork ob (ws k)) (hnb : 0 < nb)
    (hroom : WarmupFits bin bout nb) {data : List (List ℝ)} (hd : BatchOf bin nb data) :
    ∃ ms, speedInPlace 0 (speedTrig ob w junk inp ws W) (fun r => (ob.sizeWorkspace trigWork r).toNat) ob.largerBox nb runs data = .ok ms ∧
      SpeedKept data ms ∧ speedError data ms = 0 := by
  obtain ⟨-, -, -, e1, e2, -⟩ := makeFft3d_ok S.geo S.made
  obtain ⟨ms, h1, h2⟩ := speedInPlace_ok (zero := (0 : ℝ)) (runs := runs) (speedTrig_calls (junk := junk) (inp := inp) S hw hW hws) S.geo.length.symm
    S.geo.tilesIn (bin_order S.geo) hnb (fun r => Int.self_le_toNat _) hroom (speedData S.geo.length e1 e2 hd)
  exact ⟨ms, h1, h2, speedError_zero h2⟩

end

/-! ## Two arrays -/

section
variable {α β : Type} {bin bout src dst : List Box} {need : Nat → Int} {nb : Nat} {call : SpeedCall α β} {g : Nat → A3 Int → β} {G F : Field α β}
  {ms m0s : List (Mem α β)}

def noRank : Nat → Bool := fun _ => false

/-- `forward` from the real to the complex array and `backward` the other way round; `good` are the batches for which the calls work. -/
structure SpeedCallsR2C (bin bout : List Box) (need : Nat → Int) (good : Nat → Prop) (call : SpeedCall α β) (T : (Nat → A3 Int → β) → Nat → A3 Int → α) :
    Prop where
  there : ∀ k nb m0s g, 0 < nb → good nb → CallArrays bin bout true false need nb noRank m0s (.inr g) →
    ∃ ms, call k true nb .full m0s = .ok ms ∧ Outcome bout nb m0s ms (.inl (T g)) ∧ Untouched bin bout nb noRank m0s ms
  back : ∀ k nb m0s g, 0 < nb → good nb → CallArrays bout bin false true need nb noRank m0s (.inl (T g)) →
    ∃ ms, call k false nb .none m0s = .ok ms ∧ Outcome bin nb m0s ms (.inr g) ∧ Untouched bout bin nb noRank m0s ms

theorem turned_get {r : Nat} {m : Mem α β} (h : (turned ms)[r]? = some m) : ∃ m0, ms[r]? = some m0 ∧ m = ⟨m0.output, m0.input, m0.work⟩ := by
  unfold turned at h
  rw [List.getElem?_map] at h
  cases h0 : ms[r]? with
  | none => rw [h0] at h; cases h
  | some m0 => rw [h0] at h; exact ⟨m0, rfl, (Option.some.inj h).symm⟩

theorem turned_length : (turned ms).length = ms.length := by unfold turned; rw [List.length_map]

theorem CallArrays.turned {ri ro : Bool} (ha : CallArrays src dst ri ro need nb noRank m0s G) (hl : src.length = dst.length) (h : Outcome dst nb m0s ms F) :
    CallArrays dst src ro ri need nb noRank (turned ms) F := by
  have get : ∀ (r : Nat) m, (Verif.turned ms)[r]? = some m → ∃ m1 m0, ms[r]? = some m1 ∧ m0s[r]? = some m0 ∧ Stays m0 m1 ∧ m = ⟨m1.output, m1.input, m1.work⟩ := by
    intro r m hm
    obtain ⟨m1, h1, q⟩ := turned_get hm
    have hr : r < m0s.length := by rw [← h.ranks]; exact (List.getElem?_eq_some_iff.1 h1).1
    exact ⟨m1, _, h1, List.getElem?_eq_getElem hr, h.same r _ m1 (List.getElem?_eq_getElem hr) h1, q⟩
  refine ⟨by rw [turned_length, h.ranks, ha.ranks, hl], ?_, ?_, ?_, ?_, ?_, ?_⟩ <;> intro r m hm <;> obtain ⟨m1, m0, h1, h0, st, rfl⟩ := get r m hm
  · show m1.output.isReal = ro
    rw [st.output.1]; exact ha.output r m0 h0
  · show m1.input.isReal = ri
    rw [st.input]; exact ha.input r m0 h0
  · show _ ≤ m1.output.size
    rw [st.output.2]; exact ha.outputSize r m0 h0
  · show _ ≤ m1.input.size
    rw [st.input]; exact ha.inputSize r m0 h0
  · exact fun j hj => h.values r m1 h1 j hj
  · show _ ≤ (m1.work.length : Int)
    rw [st.work]; exact ha.work r m0 h0

variable {good : Nat → Prop} {T : (Nat → A3 Int → β) → Nat → A3 Int → α}

/-- The sizes of the arrays for the input. -/
def InputSizes (ms m0s : List (Mem α β)) : Prop := ∀ (r : Nat) m m0, ms[r]? = some m → m0s[r]? = some m0 → Alike m.input m0.input

/-- A forward and a backward call. -/
theorem round_sizes {m1 m2 : List (Mem α β)} (o1 : Outcome bout nb m0s m1 F) (o2 : Outcome bin nb (turned m1) m2 G) :
    InputSizes (turned m2) m0s := by
  intro r m m0 hm h0
  obtain ⟨x2, g2, rfl⟩ := turned_get hm
  have r1 : r < (turned m1).length := by rw [← o2.ranks]; exact (List.getElem?_eq_some_iff.1 g2).1
  have s2 := o2.same r _ x2 (List.getElem?_eq_getElem r1) g2
  obtain ⟨x1, g1, q1⟩ := turned_get (List.getElem?_eq_getElem r1)
  have s1 := o1.same r m0 x1 h0 g1
  rw [q1] at s2
  have := s2.output
  dsimp only at this
  rw [s1.input] at this
  exact this

theorem InputSizes.trans {m1 m2 : List (Mem α β)} (h : InputSizes m2 m1) (h' : InputSizes m1 m0s) (hl : m2.length = m1.length) : InputSizes m2 m0s := by
  intro r m m0 hm h0
  have hr : r < m1.length := by rw [← hl]; exact (List.getElem?_eq_some_iff.1 hm).1
  have a := h r m _ hm (List.getElem?_eq_getElem hr)
  have b := h' r _ m0 (List.getElem?_eq_getElem hr) h0
  exact ⟨a.1.trans b.1, a.2.trans b.2⟩

theorem speedLoopR2C_ok (hc : SpeedCallsR2C bin bout need good call T) (hl : bin.length = bout.length) (hnb : 0 < nb) (hgood : good nb) :
    ∀ (runs k : Nat) (ms : List (Mem α β)), CallArrays bin bout true false need nb noRank ms (.inr g) →
    ∃ ms', speedLoopR2C call nb k runs ms = .ok ms' ∧ CallArrays bin bout true false need nb noRank ms' (.inr g) ∧ InputSizes ms' ms := by
  intro runs
  induction runs with
  | zero =>
    intro k ms h
    refine ⟨ms, rfl, h, fun r m m0 hm h0 => ?_⟩
    rw [hm] at h0
    rw [Option.some.inj h0]; exact ⟨rfl, rfl⟩
  | succ runs ih =>
    intro k ms h
    obtain ⟨m1, e1, o1, -⟩ := hc.there k nb ms g hnb hgood h
    have h1 := h.turned hl o1
    obtain ⟨m2, e2, o2, -⟩ := hc.back (k + 1) nb _ g hnb hgood h1
    have h2 := h1.turned hl.symm o2
    obtain ⟨m3, e3, h3, t3⟩ := ih (k + 2) _ h2
    refine ⟨m3, ?_, h3, t3.trans (round_sizes o1 o2) (by rw [h3.ranks, h2.ranks])⟩
    unfold speedLoopR2C
    rw [e1]
    show (call (k + 1) false nb .none (turned m1)).bind _ = _
    rw [e2]
    exact e3

theorem speedArraysR2C_get {zero : α} {size : Nat → Nat} {data : List (List β)} {r : Nat} {m : Mem α β} (h : (speedArraysR2C zero size data)[r]? = some m) :
    ∃ x, data[r]? = some x ∧ m = ⟨.inr x, .inl (List.replicate (size r) zero), []⟩ := by
  unfold speedArraysR2C at h
  rw [List.getElem?_mapIdx] at h
  cases h0 : data[r]? with
  | none => rw [h0] at h; cases h
  | some x => rw [h0] at h; exact ⟨x, rfl, (Option.some.inj h).symm⟩

/-- The real arrays are the data again. -/
def SpeedKeptR2C (data : List (List β)) (ms : List (Mem α β)) : Prop :=
  ms.length = data.length ∧ ∀ (r : Nat) x m, data[r]? = some x → ms[r]? = some m → m.input = .inr x

theorem InputSizes.newWork {zero : α} {n : Nat → Nat} (h : InputSizes ms m0s) : InputSizes (newWork zero n ms) m0s := by
  intro r m m0 hm h0
  obtain ⟨m1, h1, rfl⟩ := newWork_get hm
  exact h r m1 m0 h1 h0

theorem speedR2C_ok [Inhabited α] [Inhabited β] {zero : α} {n size : Nat → Nat} {w : Box} {runs : Nat} {data : List (List β)}
    (hc : SpeedCallsR2C bin bout need good call T) (hl : bin.length = bout.length) (ht : Tiles bin w) (ho : ∀ b ∈ bin, IsOrder b.order) (hnb : 0 < nb)
    (hone : good 1) (hgood : good nb) (hn : ∀ r, need r ≤ n r) (hd : data.length = bin.length)
    (hx : ∀ (r : Nat) x, data[r]? = some x → x.length = nb * (boxAt bin r).points.card)
    (hsize : ∀ r, r < bin.length → size r = (boxAt bout r).points.card) :
    ∃ ms, speedR2C zero call n size nb runs data = .ok ms ∧ SpeedKeptR2C data ms := by
  set m0s : List (Mem α β) := speedArraysR2C zero (fun r => nb * size r) data with hm0
  have len : m0s.length = bin.length := by rw [hm0]; unfold speedArraysR2C; rw [List.length_mapIdx, hd]
  have ha : HasArrays bin bout true false (fun _ => 0) nb noRank m0s := by
    refine ⟨len, ?_, ?_, ?_, ?_, ?_⟩ <;> intro r m hm <;>
      have hr : r < bin.length := (by rw [← len]; exact (List.getElem?_eq_some_iff.1 hm).1) <;> obtain ⟨x, hx', rfl⟩ := speedArraysR2C_get hm
    · rfl
    · rfl
    · show _ ≤ x.length
      rw [hx r x hx']
    · show _ ≤ (List.replicate _ _).length
      rw [List.length_replicate, hsize r hr]
    · simp
  obtain ⟨G, hG, hA⟩ := ha.values ht ho (fun _ _ h => by cases h)
  obtain ⟨g, rfl⟩ : ∃ g, G = .inr g := by
    cases G with
    | inl g => cases hG
    | inr g => exact ⟨g, rfl⟩
  have hn1 : ∀ r, ((1 : Nat) : Int) * need r ≤ n r := fun r => by simpa using hn r
  have a0 := (hA.fewer (nb' := 1) hnb).newWork (zero := zero) hn1
  obtain ⟨m1, e1, o1, u1⟩ := hc.there 0 1 _ g Nat.one_pos hone a0
  have a1 := (a0.turned hl o1).newWork (zero := zero) hn1
  obtain ⟨m2, e2, o2, u2⟩ := hc.back 1 1 _ g Nat.one_pos hone a1
  have a2 := a1.turned hl.symm o2
  have get : ∀ (r : Nat) m, (turned m2)[r]? = some m → r < bin.length ∧ ∃ m0, m0s[r]? = some m0 ∧ Alike m.input m0.input ∧ Alike m.output m0.output ∧
      ∀ a : Int, ((boxAt bin r).points.card : Int) ≤ a → m.input.rd a = m0.input.rd a := by
    intro r m hm
    have hr : r < bin.length := by rw [← a2.ranks]; exact (List.getElem?_eq_some_iff.1 hm).1
    obtain ⟨x2, g2, rfl⟩ := turned_get hm
    have r1 : r < (newWork zero n (turned m1)).length := by rw [← o2.ranks]; exact (List.getElem?_eq_some_iff.1 g2).1
    have s2 := o2.same r _ x2 (List.getElem?_eq_getElem r1) g2
    have t2 := u2 r _ x2 (List.getElem?_eq_getElem r1) g2
    obtain ⟨y1, k1, q1⟩ := newWork_get (List.getElem?_eq_getElem r1)
    obtain ⟨x1, g1, rfl⟩ := turned_get k1
    rw [q1] at s2 t2
    have r0 : r < (newWork zero n m0s).length := by rw [← o1.ranks]; exact (List.getElem?_eq_some_iff.1 g1).1
    have s1 := o1.same r _ x1 (List.getElem?_eq_getElem r0) g1
    obtain ⟨x0, g0, q0⟩ := newWork_get (List.getElem?_eq_getElem r0)
    rw [q0] at s1
    have i1 : x1.input = x0.input := s1.input
    have i2 : x2.input = x1.output := s2.input
    have al : Alike x2.output x0.input := by have := s2.output; dsimp only at this; rwa [i1] at this
    refine ⟨hr, x0, g0, al, ?_, fun a h => ?_⟩
    · dsimp only; rw [i2]; exact s1.output
    · have := t2.2 a (by simp only [writable, noRank, Bool.false_eq_true, if_false, Nat.one_mul]; exact h)
      dsimp only at this ⊢
      rwa [i1] at this
  have b2 : CallArrays bin bout true false (fun _ => 0) nb noRank (turned m2) (.inr g) := by
    refine ⟨a2.ranks, a2.input, a2.output, ?_, ?_, ?_, ?_⟩ <;> intro r m hm <;> obtain ⟨hr, m0, h0, ai, ao, un⟩ := get r m hm
    · have := hA.inputSize r m0 h0
      simp only [noRank, Bool.false_eq_true, if_false] at this ⊢
      rw [ai.2]; exact this
    · rw [ao.2]; exact hA.outputSize r m0 h0
    · intro j hj
      by_cases hj0 : j = 0
      · subst hj0
        exact a2.start r m hm 0 Nat.one_pos
      · have hst := hA.start r m0 h0 j hj
        simp only [noRank, Bool.false_eq_true, if_false] at hst ⊢
        intro p hp
        rw [← hst p hp]
        apply un
        have := (Box.offset_range (ho _ (boxAt_mem hr)) hp).1
        have h1 : (1 : Int) * (boxAt bin r).points.card ≤ j * (boxAt bin r).points.card := by
          apply Int.mul_le_mul_of_nonneg_right <;> omega
        omega
    · simp
  have t2 : InputSizes (turned m2) m0s := by
    intro r m m0 hm h0
    obtain ⟨-, m0', h0', ai, -⟩ := get r m hm
    rw [h0'] at h0
    rw [← Option.some.inj h0]; exact ai
  have b3 := b2.newWork (zero := zero) (need' := need) (n := fun r => nb * n r) (by
    intro r
    push_cast
    exact Int.mul_le_mul_of_nonneg_left (hn r) (by omega))
  obtain ⟨m3, e3, h3, t3⟩ := speedLoopR2C_ok hc hl hnb hgood runs 2 _ b3
  have t := t3.trans t2.newWork (by rw [h3.ranks, b3.ranks])
  refine ⟨m3, ?_, by rw [h3.ranks, hd], fun r x m hxr hm => ?_⟩
  · unfold speedR2C
    rw [← hm0, e1]
    show (call 1 false 1 .none _).bind _ = _
    rw [e2]
    exact e3
  have hr : r < bin.length := by rw [← h3.ranks]; exact (List.getElem?_eq_some_iff.1 hm).1
  have hr0 : r < m0s.length := by rw [len]; exact hr
  have hx0 := List.getElem?_eq_getElem hr0
  obtain ⟨x', hx', q0⟩ := speedArraysR2C_get hx0
  obtain rfl : x' = x := by rw [hxr] at hx'; exact (Option.some.inj hx').symm
  have s0 := hA.start r _ hx0
  have s3 := h3.start r m hm
  simp only [noRank, Bool.false_eq_true, if_false] at s0 s3
  have al := t r m _ hm hx0
  rw [q0] at s0 al
  have hlen := hx r x' hxr
  obtain ⟨i, out, wk⟩ := m
  cases i with
  | inl l => exact absurd al.1 (by simp [Data.isReal])
  | inr l =>
    have hsz : l.length = x'.length := al.2
    show (Sum.inr l : Data α β) = _
    congr 1
    apply List.ext_getElem?
    intro a
    by_cases hlt : a < x'.length
    · have hb := ho _ (boxAt_mem hr)
      rw [hlen] at hlt
      have hcard : 0 < (boxAt bin r).points.card := by
        rcases Nat.eq_zero_or_pos (boxAt bin r).points.card with h | h
        · rw [h, Nat.mul_zero] at hlt; omega
        · exact h
      have hj : a / (boxAt bin r).points.card < nb := Nat.div_lt_of_lt_mul (by rwa [Nat.mul_comm] at hlt)
      obtain ⟨p, hp, e⟩ := Box.offset_surj hb (a := ((a % (boxAt bin r).points.card : Nat) : Int)) (by omega)
        (by rw [Box.count_eq_card]; exact_mod_cast Nat.mod_lt a hcard)
      have ea : ((a / (boxAt bin r).points.card : Nat) : Int) * (boxAt bin r).points.card + (boxAt bin r).offset p = a := by
        rw [e]
        have := Nat.div_add_mod a (boxAt bin r).points.card
        rw [Nat.mul_comm] at this
        exact_mod_cast this
      have t0 := s0 _ hj p hp
      have t3 := s3 _ hj p hp
      rw [ea] at t0 t3
      have t := t3.trans t0.symm
      rw [← hlen] at hlt
      simp only [Data.rd, rd, Int.natCast_nonneg, if_true, Int.toNat_natCast] at t
      rw [List.getElem?_eq_getElem hlt, List.getElem?_eq_getElem (by omega)] at t
      rw [List.getElem?_eq_getElem hlt, List.getElem?_eq_getElem (by omega)]
      simpa using t
    · rw [List.getElem?_eq_none (by omega), List.getElem?_eq_none (by omega)]

end

theorem speedErrorR2C_zero {α β : Type} [NormedAddCommGroup β] {data : List (List β)} {ms : List (Mem α β)} (h : SpeedKeptR2C data ms) :
    speedErrorR2C data ms = 0 := by
  have fold : ∀ l : List ℝ, (∀ y ∈ l, y = 0) → l.foldl max 0 = 0 := by
    intro l
    induction l with
    | nil => intro _; rfl
    | cons y l ih =>
      intro hy
      rw [List.foldl_cons, hy y List.mem_cons_self, max_self]
      exact ih fun z hz => hy z (List.mem_cons_of_mem _ hz)
  apply fold
  intro y hy
  obtain ⟨⟨x, m⟩, hxm, hy⟩ := List.mem_flatMap.1 hy
  obtain ⟨r, hr⟩ := List.mem_iff_getElem?.1 hxm
  obtain ⟨hx, hm⟩ := List.getElem?_zip_eq_some.1 hr
  have e := h.2 r x m hx hm
  dsimp only at hy
  rw [e] at hy
  obtain ⟨z, hz, rfl⟩ := List.mem_map.1 hy
  obtain ⟨a, ha⟩ := List.mem_iff_getElem?.1 hz
  obtain ⟨h1, h2⟩ := List.getElem?_zip_eq_some.1 ha
  rw [h1] at h2
  rw [Option.some.inj h2, sub_self, norm_zero]

section
variable {bin bout : List Box} {wi wo : Box} {opts : Opts} {ob : Object} {w nb runs : Nat} {junk : Nat → Tag → Int × Int → Scratch}
  {inp : Nat → Tag → Int × Int → Arr ℂ} {d : Fin 3}

/-- The calls of the r2c benchmark. -/
noncomputable def speedHalf (ob : Object) (w : Nat) (junk : Nat → Tag → Int × Int → Scratch) (inp : Nat → Tag → Int × Int → Arr ℂ)
    (W : Nat → Bool → World ℂ ℝ) : SpeedCall ℂ ℝ := fun k fwd nb s ms =>
  perform ob (stockKernel w (junk k) (inp k)) (W k fwd) (if fwd then .r2c else .c2r) fwd nb noRank s ms

theorem speedHalf_calls (S : StockR2C bin bout d wi wo opts ob) (hw : 0 < w) {W : Nat → Bool → World ℂ ℝ} (hW : ∀ k fwd, WorldOk (W k fwd) ob.plan fwd)
    (hs : SourceHolds bout noRank) :
    SpeedCallsR2C bin bout (ob.sizeWorkspace noWork) (fun nb => nb = 1 ∨ ReshapesAfter ob bin.length) (speedHalf ob w junk inp W)
      (fun g j p => ((Scaling.full.factor wi.count : ℝ) : ℂ) * dft3 true wi (fun q => (g j q : ℂ)) p) := by
  refine ⟨fun k nb m0s g hnb hh ha => C84_r2c_forward S hw (hW k true) hnb ha hh, fun k nb m0s g hnb _ ha => ?_⟩
  obtain ⟨ms, h1, h2, h3⟩ := C84_r2c_backward (s := .none) (junk := junk k) (inp := inp k) S hw (hW k false) hnb ha hs
  refine ⟨ms, h1, h2.congr S.geo.tilesIn (by rw [ha.ranks]; exact S.geo.length) fun j _ p hp => ?_, h3⟩
  have hf := inverse_factor (s := .full) (s' := .none) (.inl ⟨rfl, rfl⟩) (world_count_pos S.geo)
  simp only [Field.val]
  rw [c2r3_mul, c2r3_dft3 d (g j) hp, ← mul_assoc, ← mul_assoc, hf, one_mul]

/-- C85: the r2c benchmark; no rank may be without an output index, and for batches the plan must have a reshape after the r2c transform (C43). -/
theorem C85_r2c_partial (S : StockR2C bin bout d wi wo opts ob) (hw : 0 < w) {W : Nat → Bool → World ℂ ℝ} (hW : ∀ k fwd, WorldOk (W k fwd) ob.plan fwd)
    (hs : SourceHolds bout noRank) (hnb : 0 < nb) (hhalf : nb = 1 ∨ ReshapesAfter ob bin.length) {data : List (List ℝ)} (hd : BatchOf bin nb data) :
    ∃ ms, speedR2C 0 (speedHalf ob w junk inp W) (fun r => (ob.sizeWorkspace noWork r).toNat) (fun r => (ob.sizeOutbox r).toNat) nb runs data = .ok ms ∧
      SpeedKeptR2C data ms ∧ speedErrorR2C data ms = 0 := by
  obtain ⟨-, -, e2, -⟩ := makeFft3dR2C_ok S.geo S.first S.small S.made
  obtain ⟨ms, h1, h2⟩ := speedR2C_ok (zero := (0 : ℂ)) (runs := runs) (speedHalf_calls (junk := junk) (inp := inp) S hw hW hs) S.geo.length.symm
    S.geo.tilesIn (bin_order S.geo) hnb (.inl rfl) hhalf (fun r => Int.self_le_toNat _) hd.1 hd.2 (size := fun r => (ob.sizeOutbox r).toNat)
    (fun r hr => by
      show (countAt ob.plan.out3 r).toNat = _
      rw [e2, countAt_eq (S.geo.length ▸ hr), Int.toNat_natCast])
  exact ⟨ms, h1, h2, speedErrorR2C_zero h2⟩

end

/-! ## The reported error -/

theorem mem_le_foldl_max {l : List ℝ} {y : ℝ} (h : y ∈ l) : ∀ b, y ≤ l.foldl max b := by
  have mono : ∀ (l : List ℝ) (b : ℝ), b ≤ l.foldl max b := by
    intro l
    induction l with
    | nil => intro b; exact le_rfl
    | cons x l ih => intro b; exact (le_max_left b x).trans (ih _)
  induction l with
  | nil => cases h
  | cons x l ih =>
    intro b
    rcases List.mem_cons.1 h with rfl | h
    · exact (le_max_right b y).trans (mono l _)
    · exact ih h _

/-- C85: the benchmark notices every entry that differs from the data, on every rank. -/
theorem C85_detects {α β : Type} [NormedAddCommGroup α] {data : List (List α)} {ms : List (Mem α β)} {r a : Nat} {x l : List α} {m : Mem α β} {u v : α}
    (hx : data[r]? = some x) (hm : ms[r]? = some m) (hl : m.output = .inl l) (hu : x[a]? = some u) (hv : l[a]? = some v) :
    ‖u - v‖ ≤ speedError data ms := by
  apply mem_le_foldl_max
  refine List.mem_flatMap.2 ⟨(x, m), List.mem_iff_getElem?.2 ⟨r, List.getElem?_zip_eq_some.2 ⟨hx, hm⟩⟩, ?_⟩
  dsimp only
  rw [hl]
  exact List.mem_map.2 ⟨(u, v), List.mem_iff_getElem?.2 ⟨a, List.getElem?_zip_eq_some.2 ⟨hu, hv⟩⟩, rfl⟩

/-- C85: the same for the r2c benchmark. -/
theorem C85_detects_r2c {α β : Type} [NormedAddCommGroup β] {data : List (List β)} {ms : List (Mem α β)} {r a : Nat} {x l : List β} {m : Mem α β} {u v : β}
    (hx : data[r]? = some x) (hm : ms[r]? = some m) (hl : m.input = .inr l) (hu : x[a]? = some u) (hv : l[a]? = some v) :
    ‖u - v‖ ≤ speedErrorR2C data ms := by
  apply mem_le_foldl_max
  refine List.mem_flatMap.2 ⟨(x, m), List.mem_iff_getElem?.2 ⟨r, List.getElem?_zip_eq_some.2 ⟨hx, hm⟩⟩, ?_⟩
  dsimp only
  rw [hl]
  exact List.mem_map.2 ⟨(u, v), List.mem_iff_getElem?.2 ⟨a, List.getElem?_zip_eq_some.2 ⟨hu, hv⟩⟩, rfl⟩

/-! ## From the command line to the reported error -/

/-- C85: the whole c2c benchmark: the boxes, the object and the runs, for at most as many ranks as indexes in a direction. -/
theorem C85_program_partial {size : A3 Int} {n : Nat} {o : SpeedGrids} {gi go : A3 Int} (hs : ∀ d, 0 < size.get d) (hn : 0 < n)
    (hg : speedGrids (speedWorld size) n o = .ok (gi, go)) (h1 : gridProduct gi = n) (h2 : gridProduct go = n) (h3 : ∀ d, 0 < gi.get d ∧ 0 < go.get d)
    (hsmall : size.x * size.y * size.z < 2 ^ 31) (hlong : ∀ d, (n : Int) ≤ size.get d) (hgood : ∀ d, GoodLength (size.get d).toNat) (opts : Opts) :
    ∃ bin bout ob, speedBoxes size n o none = .ok (bin, bout) ∧ makeFft3d .stock bin bout opts = .ok ob ∧
      ∀ (w nb runs : Nat) (junk : Nat → Tag → Int × Int → Scratch) (inp : Nat → Tag → Int × Int → Arr ℂ) (W : Nat → Bool → World ℂ ℝ) (data : List (List ℂ)),
        0 < w → (∀ k fwd, WorldOk (W k fwd) ob.plan fwd) → 0 < nb → (nb = 1 ∨ gi = go) → BatchOf bin nb data →
        ∃ ms, speedInPlace 0 (speedStock ob w junk inp W) (fun r => (ob.sizeWorkspace noWork r).toNat) ob.largerBox nb runs data = .ok ms ∧
          speedError data ms = 0 := by
  obtain ⟨bin, bout, hb, hl, geo⟩ := (C85_boxes (r2c := none) hs hn hg).1 ⟨h1, h2, h3⟩
  have hc : (speedWorld size).count < 2 ^ 31 := by
    have : (speedWorld size).count = size.x * size.y * size.z := by
      unfold Box.count
      rw [(speedOut_facts (r2c := none) hs).1]
      simp [speedWorld, Box.size, A3.of, A3.get]
    rw [this]; exact hsmall
  obtain ⟨ob, hob⟩ := C54_constructor geo hc (by
    intro d
    rw [hl]
    show (n : Int) ≤ (speedWorld size).size.get d ∧ (n : Int) ≤ (speedWorld size).size.get d
    rw [speedWorld_size]
    exact ⟨hlong d, hlong d⟩) .stock (fun z h => Family.noConfusion h) opts
  refine ⟨bin, bout, ob, hb, hob, fun w nb runs junk inp W data hw hW hnb hroom hd => ?_⟩
  have S : StockC2C bin bout (speedWorld size) (speedOut size none) opts ob := by
    refine ⟨geo, hob, fun d => ?_⟩
    have : (speedWorld size).extent d = (size.get d).toNat := by
      unfold Box.extent
      rw [← speedWorld_size size d]
      exact congrArg Int.toNat (Box.size_get (speedWorld size) d).symm
    rw [this]; exact hgood d
  have hfit : WarmupFits bin bout nb := by
    rcases hroom with h | h
    · exact .inl h
    · right
      intro r _
      have : bin = bout := by
        subst h
        unfold speedBoxes at hb
        simp only [hg] at hb
        change (if gridProduct gi ≠ n then _ else if gridProduct gi ≠ n then _ else if _ then _ else _) = _ at hb
        split at hb
        · cases hb
        split at hb
        · cases hb
        have := Except.ok.inj hb
        rw [Prod.mk.injEq] at this
        exact this.1.symm.trans this.2
      rw [this]
  obtain ⟨ms, e1, -, e2⟩ := C85_complex_partial (junk := junk) (inp := inp) (runs := runs) S hw hW hnb hfit hd
  exact ⟨ms, e1, e2⟩

/-! ## Where the benchmark is wrong -/

/-- The scaling of the documented entries by an exact division. -/
def scaleFirst (n : Nat) (c : Int) : Data GInt Int → Data GInt Int
  | .inl l => .inl ((l.take n).map (fun x => (x.1 / c, x.2 / c)) ++ l.drop n)
  | .inr l => .inr l

/-- The calls with exact integers; `c` is the number of indexes. -/
def gaussCalls (ob : Object) (c : Int) : SpeedCall GInt Int := fun _ fwd nb s ms => do
  let ms ← transform (gauss 1) plainWorld .same ob.fft fwd nb everyRank ms
  .ok (if s = .full then ms.mapIdx fun r m => ⟨m.input, scaleFirst (nb * (if fwd then ob.sizeOutbox r else ob.sizeInbox r).toNat) c m.output, m.work⟩
    else ms)

/-- The c2c benchmark with exact integers: the arrays at the end. -/
def gaussSpeed (size : A3 Int) (n : Nat) (o : SpeedGrids) (nb runs : Nat) (data : List (List GInt)) : Res (List (Data GInt Int)) := do
  let (bin, bout) ← speedBoxes size n o none
  let ob ← makeFft3d .stock bin bout plainOpts
  let ms ← speedInPlace 0 (gaussCalls ob (gridProduct size)) (fun r => (ob.sizeWorkspace noWork r).toNat) ob.largerBox nb runs data
  .ok (ms.map Mem.output)

def realOf (l : List Int) : List GInt := l.map fun x => (x, 0)

/-- C85, negation: `4 2 1 -ingrid 3 1 1 -outgrid 1 3 1 -batch 2` on three ranks.  The warm-up transforms one entry only, but on rank 1 the output box
(4 indexes) is larger than the input box (2 indexes): `forward` overwrites the second entry, and the benchmark reports an error of 608 though both
transforms are exact.  With `-batch 1` the data come back. -/
theorem C85_false_warmup :
    gaussSpeed ⟨4, 2, 1⟩ 3 ⟨some ⟨3, 1, 1⟩, some ⟨1, 3, 1⟩, false⟩ 2 1
      [realOf [64, 128, 192, 256, 320, 384, 448, 512], realOf [384, 448, 512, 576], realOf [704, 768, 832, 896]] =
        .ok [.inl (realOf [64, 128, 192, 256, 320, 384, 448, 512]), .inl (realOf [384, 448, -32, -32, -64, -64, 0, -32]),
          .inl (realOf [704, 768, 832, 896])] ∧
    gaussSpeed ⟨4, 2, 1⟩ 3 ⟨some ⟨3, 1, 1⟩, some ⟨1, 3, 1⟩, false⟩ 1 1 [realOf [64, 128, 192, 256], realOf [384, 448], realOf [704, 768]] =
        .ok [.inl (realOf [64, 128, 192, 256]), .inl (realOf [384, 448, -32, -32]), .inl (realOf [704, 768])] := by
  decide +kernel

/-- C85, negation: `-batch 0` passes; the arrays have no entry, and the warm-up transforms one. -/
theorem C85_false_batch : gaussSpeed ⟨4, 2, 1⟩ 2 ⟨none, none, false⟩ 0 1 [[], []] = .error .ub := by decide +kernel

/-- C85, negation: `-ingrid -1 -2 2` on four ranks passes the comparison with the number of ranks; `split_world` returns no boxes. -/
theorem C85_false_grid : speedBoxes ⟨8, 8, 8⟩ 4 ⟨some ⟨-1, -2, 2⟩, none, false⟩ none = .error .ub := by decide +kernel

/-- C85, negation: without options the benchmark stops on six ranks for 1 x 4 x 2 indexes (C09: the suggested grid has the wrong product); the grid
1 x 3 x 2 works. -/
theorem C85_false_default : speedBoxes ⟨1, 4, 2⟩ 6 ⟨none, none, false⟩ none = .error .runtime ∧
    ∃ b, speedBoxes ⟨1, 4, 2⟩ 6 ⟨some ⟨1, 3, 2⟩, some ⟨1, 3, 2⟩, false⟩ none = .ok b := by
  refine ⟨by decide +kernel, ?_⟩
  cases h : speedBoxes ⟨1, 4, 2⟩ 6 ⟨some ⟨1, 3, 2⟩, some ⟨1, 3, 2⟩, false⟩ none with
  | ok b => exact ⟨b, rfl⟩
  | error e =>
    have : (match speedBoxes ⟨1, 4, 2⟩ 6 ⟨some ⟨1, 3, 2⟩, some ⟨1, 3, 2⟩, false⟩ none with | .ok _ => true | .error _ => false) = true := by decide +kernel
    rw [h] at this
    cases this

/-! ## Examples -/

/-- C85: `8 4 6 -batch 3` with the grid 2 x 2 x 1 on four ranks, any options of the plan. -/
example (opts : Opts) : ∃ bin bout ob, speedBoxes ⟨8, 4, 6⟩ 4 ⟨some ⟨2, 2, 1⟩, some ⟨2, 2, 1⟩, false⟩ none = .ok (bin, bout) ∧
    makeFft3d .stock bin bout opts = .ok ob ∧ ∃ (data : List (List ℂ)) (W : Nat → Bool → World ℂ ℝ) (ms : List (Mem ℂ ℝ)),
      speedInPlace 0 (speedStock ob 4 (fun _ _ _ => ⟨fun _ => 0, fun _ _ => 0⟩) (fun _ _ _ _ => 0) W) (fun r => (ob.sizeWorkspace noWork r).toNat)
        ob.largerBox 3 5 data = .ok ms ∧ speedError data ms = 0 ∧ data.length = 4 := by
  obtain ⟨bin, bout, ob, h1, h2, h3⟩ := C85_program_partial (size := ⟨8, 4, 6⟩) (n := 4) (o := ⟨some ⟨2, 2, 1⟩, some ⟨2, 2, 1⟩, false⟩) (gi := ⟨2, 2, 1⟩)
    (go := ⟨2, 2, 1⟩) (by decide) (by decide) rfl (by decide) (by decide) (by decide) (by decide) (by decide)
    (fun d => goodLength_small (by revert d; decide) (by revert d; decide)) opts
  obtain ⟨W, hW⟩ : ∃ W : Nat → Bool → World ℂ ℝ, ∀ k fwd, WorldOk (W k fwd) ob.plan fwd :=
    ⟨fun _ fwd => (world_exists ob.plan fwd).choose, fun _ fwd => (world_exists ob.plan fwd).choose_spec⟩
  obtain ⟨bin', bout', h4, h5, -⟩ := (C85_boxes (size := ⟨8, 4, 6⟩) (n := 4) (o := ⟨some ⟨2, 2, 1⟩, some ⟨2, 2, 1⟩, false⟩) (gi := ⟨2, 2, 1⟩)
    (go := ⟨2, 2, 1⟩) (r2c := none) (by decide) (by decide) rfl).1 (by decide)
  rw [h1] at h4
  have hbin : bin.length = 4 := by rw [(Prod.mk.inj (Except.ok.inj h4)).1]; exact h5
  obtain ⟨ms, h6, h7⟩ := h3 4 3 5 (fun _ _ _ => ⟨fun _ => 0, fun _ _ => 0⟩) (fun _ _ _ _ => 0) W
    (bin.map fun b => List.replicate (3 * b.points.card) 1) (by decide) hW (by decide) (.inr rfl) ⟨List.length_map .., fun r x hx => by
      rw [List.getElem?_map] at hx
      obtain ⟨b, hb, rfl⟩ := Option.map_eq_some_iff.1 hx
      rw [List.length_replicate, boxAt, List.getD_eq_getElem?_getD, hb]
      rfl⟩
  exact ⟨bin, bout, ob, h1, h2, _, W, ms, h6, h7, by rw [List.length_map, hbin]⟩

/-- C85: the hypotheses of the r2r and of the r2c benchmark: four ranks, 4 x 6 x 8 indexes. -/
example (opts : Opts) (z : Trig) : (∃ wi wo ob, StockR2R z exIn exOut wi wo opts ob ∧ WarmupFits exIn exOut 1 ∧ ∃ ws, EnoughWork ob ws) ∧
    (∃ wi wo ob, StockR2C exIn exOutC 1 wi wo opts ob ∧ SourceHolds exOutC noRank) ∧ BatchOf exIn 1 (exIn.map fun b => List.replicate b.points.card (1 : ℝ)) := by
  obtain ⟨wi, wo, ob, S⟩ := exObjectR2R z opts
  obtain ⟨wi', wo', ob', S'⟩ := exObjectC opts
  refine ⟨⟨wi, wo, ob, S, .inl rfl, ?_⟩, ⟨wi', wo', ob', S', exSource _ (by simp)⟩, List.length_map .., fun r x hx => ?_⟩
  · classical
    refine ⟨fun tag => List.replicate (match ob.fft.execs[tag.rank]? with
      | some e => (match workOfRank e with | .ok n => n.toNat | .error _ => 0)
      | none => 0) 0, fun tag e need he hn => ?_⟩
    simp only [he, hn, List.length_replicate]
    omega
  · rw [List.getElem?_map] at hx
    obtain ⟨b, hb, rfl⟩ := Option.map_eq_some_iff.1 hx
    rw [List.length_replicate, boxAt, List.getD_eq_getElem?_getD, hb, Nat.one_mul]
    rfl

/-- C85: a difference of the last entry of the second rank is reported. -/
example : (2 : ℝ) ≤ speedError [[1], [1, 3]] [(⟨.inl [], .inl [1], []⟩ : Mem ℝ Unit), ⟨.inl [], .inl [1, 5, 7], []⟩] := by
  have := C85_detects (β := Unit) (data := [[1], [1, (3 : ℝ)]]) (ms := [⟨.inl [], .inl [1], []⟩, ⟨.inl [], .inl [1, 5, 7], []⟩]) (r := 1) (a := 1) rfl rfl rfl rfl rfl
  norm_num at this
  exact this

end Verif
