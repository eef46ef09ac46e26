import Verif.ConvLemmas
import Verif.CallData

/-!
# Programs that work on the spectrum

`/repo/benchmarks/convolution.cpp` transforms data, multiplies the spectrum entry by entry on each rank and transforms back.  This file has the
loop of the program on one rank and the whole program on all the ranks, for one array times itself as in the benchmark and for two arrays as
announced in its first comment.  The program of the benchmark has all the arrays in place; here each rank may have its arrays in
place or not, without that the result overwrites the first array.
-/

namespace Verif

section
variable {α β : Type}

/-- The loop `for(size_t i=0; i<n; ++i) a[i] *= b[i]` (convolution.cpp:86-89), with the multiplication of the type `α`. -/
def multiplyArrays [Mul α] (n : Nat) (a b : Data α β) : Res (Data α β) :=
  match a, b with
  | .inl a, .inl b => if n ≤ a.length ∧ n ≤ b.length then .ok (.inl (List.zipWith (fun x y => x * y) (a.take n) b ++ a.drop n)) else .error .ub
  | _, _ => .error .ub

/-- The arrays of the transform back: the input is the spectrum `x`, the output is the array of the data. -/
def backMem (inplace : Bool) (m : Mem α β) (x : Data α β) : Mem α β := if inplace then ⟨m.input, x, m.work⟩ else ⟨x, m.input, m.work⟩

/-- Transform with `there`, work on the spectrum with `f` on each rank, transform with `back` (convolution.cpp:84-91). -/
def throughWith (there back : List (Mem α β) → Res (List (Mem α β))) (inplace : Nat → Bool) (f : Nat → Data α β → Res (Data α β)) (xs : List (Mem α β)) :
    Res (List (Mem α β)) := do
  let ms ← there xs
  let bs ← mapRes (fun r m => do
    let x ← f r m.output
    .ok (backMem (inplace r) m x)) 0 ms
  back bs

/-- The program with two arrays: the spectrum of the second one multiplies the one of the first one. -/
def convolveWith [Mul α] (there thereY back : List (Mem α β) → Res (List (Mem α β))) (inplace : Nat → Bool) (n : Nat → Nat) (xs ys : List (Mem α β)) :
    Res (List (Mem α β)) := do
  let ys ← thereY ys
  throughWith there back inplace (fun r x =>
    match ys[r]? with
    | none => .error .ub
    | some m => multiplyArrays (n r) x m.output) xs

end

/-- The same with the calls of an object in exact arithmetic. -/
noncomputable def throughSpectrum (ob : Object) (K : Kernel ℂ ℝ) (W W' : World ℂ ℝ) (mode mode' : Mode) (nb : Nat) (inplace : Nat → Bool) (s s' : Scaling)
    (f : Nat → Data ℂ ℝ → Res (Data ℂ ℝ)) (xs : List (Mem ℂ ℝ)) : Res (List (Mem ℂ ℝ)) :=
  throughWith (perform ob K W mode true nb inplace s) (perform ob K W' mode' false nb inplace s') inplace f xs

/-- The program with two arrays in exact arithmetic. -/
noncomputable def convolve (ob : Object) (K : Kernel ℂ ℝ) (W Wy W' : World ℂ ℝ) (mode mode' : Mode) (nb : Nat) (inplace inplaceY : Nat → Bool)
    (s sy s' : Scaling) (n : Nat → Nat) (xs ys : List (Mem ℂ ℝ)) : Res (List (Mem ℂ ℝ)) :=
  convolveWith (perform ob K W mode true nb inplace s) (perform ob K Wy mode true nb inplaceY sy) (perform ob K W' mode' false nb inplace s') inplace n xs ys

/-- The benchmark (convolution.cpp:73-91): in place, the spectrum times itself over the whole array, `scale::full` forward and no scaling back. -/
noncomputable def convolutionBenchmark (ob : Object) (K : Kernel ℂ ℝ) (W W' : World ℂ ℝ) (xs : List (Mem ℂ ℝ)) : Res (List (Mem ℂ ℝ)) :=
  throughSpectrum ob K W W' .same .same 1 (fun _ => true) .full .none (fun _ x => multiplyArrays x.size x x) xs

/-- The data afterwards, in the array of the data before. -/
structure Replaced {α β : Type} (boxes : List Box) (nb : Nat) (inplace : Nat → Bool) (xs ms : List (Mem α β)) (F : Field α β) : Prop where
  ranks : ms.length = xs.length
  same : ∀ (r : Nat) m0 m, xs[r]? = some m0 → ms[r]? = some m → Alike m.output (inputOf inplace r m0)
  values : ∀ (r : Nat) m, ms[r]? = some m → ∀ j, j < nb → HoldsSlot (boxAt boxes r) j m.output F

theorem mapRes_exists {β γ : Type} {f : Nat → β → Res γ} : ∀ (l : List β) (k : Nat), (∀ i b, l[i]? = some b → ∃ c, f (k + i) b = .ok c) →
    ∃ out, mapRes f k l = .ok out ∧ out.length = l.length ∧ ∀ i b c, l[i]? = some b → out[i]? = some c → f (k + i) b = .ok c
  | [], _, _ => ⟨[], rfl, rfl, fun i b c h => by simp at h⟩
  | a :: t, k, h => by
    obtain ⟨c, hc⟩ := h 0 a rfl
    obtain ⟨out, h1, h2, h3⟩ := mapRes_exists (f := f) t (k + 1) fun i b hb => by
      obtain ⟨c, hc⟩ := h (i + 1) b hb
      exact ⟨c, by rw [show k + 1 + i = k + (i + 1) by omega]; exact hc⟩
    refine ⟨c :: out, ?_, by simp [h2], fun i b c' hb hc' => ?_⟩
    · rw [Nat.add_zero] at hc
      simp only [mapRes, hc, h1]
    · cases i with
      | zero =>
        simp only [List.getElem?_cons_zero, Option.some.injEq] at hb hc'
        subst hb; subst hc'; exact hc
      | succ i =>
        simp only [List.getElem?_cons_succ] at hb hc'
        rw [show k + (i + 1) = k + 1 + i by omega]
        exact h3 i b c' hb hc'

theorem res_bind_ok {α β : Type} {x : Res α} {f : α → Res β} {a : α} (h : x = .ok a) : (x >>= f) = f a := by rw [h]; rfl

section
variable {α β : Type} {there thereY back : List (Mem α β) → Res (List (Mem α β))} {nb : Nat} {inplace : Nat → Bool}
  {f : Nat → Data α β → Res (Data α β)} {xs : List (Mem α β)} {bin bout : List Box} {need : Nat → Int} {realIn : Bool} {G H : Field α β}
  {F F' : Nat → A3 Int → α}

/-- The product of two arrays holds the products of the values. -/
theorem multiplyArrays_holds [Mul α] {b : Box} (ho : IsOrder b.order) {n : Nat} {x y : Data α β} (hx : x.isReal = false) (hy : y.isReal = false)
    (hn : nb * b.points.card ≤ n) (hnx : n ≤ x.size) (hny : n ≤ y.size) (h1 : ∀ j, j < nb → HoldsSlot b j x (.inl F))
    (h2 : ∀ j, j < nb → HoldsSlot b j y (.inl F')) :
    ∃ z, multiplyArrays n x y = .ok z ∧ Alike z x ∧ ∀ j, j < nb → HoldsSlot b j z (.inl fun j p => F j p * F' j p) := by
  cases x with
  | inr x => cases hx
  | inl x =>
  cases y with
  | inr y => cases hy
  | inl y =>
  have hnx : n ≤ x.length := hnx
  have hny : n ≤ y.length := hny
  refine ⟨_, if_pos ⟨hnx, hny⟩, ⟨rfl, ?_⟩, fun j hj p hp => ?_⟩
  · show (List.zipWith (fun x y => x * y) (x.take n) y ++ x.drop n).length = x.length
    simp only [List.length_append, List.length_zipWith, List.length_take, List.length_drop]
    omega
  · have hof := Box.offset_range ho hp
    rw [Box.count_eq_card] at hof
    have e1 := h1 j hj p hp
    have e2 := h2 j hj p hp
    have hpos : 0 ≤ (j : Int) * b.points.card + b.offset p := by
      have : 0 ≤ (j : Int) * b.points.card := by positivity
      omega
    obtain ⟨a, ha⟩ : ∃ a : Nat, (a : Int) = (j : Int) * b.points.card + b.offset p := ⟨_, Int.toNat_of_nonneg hpos⟩
    have han : a < n := by
      have h3 : (j + 1) * b.points.card ≤ nb * b.points.card := Nat.mul_le_mul_right _ hj
      have h4 : (a : Int) < ((j + 1) * b.points.card : Nat) := by push_cast; rw [ha, Int.add_mul]; omega
      omega
    rw [← ha] at e1 e2 ⊢
    have rdN : ∀ (l : List α), Data.rd (.inl l : Data α β) (a : Int) = (l[a]?).map Sum.inl := by
      intro l
      simp only [Data.rd, rd]
      rw [if_pos (by omega), Int.toNat_natCast]
    rw [rdN] at e1 e2 ⊢
    simp only [Field.val] at e1 e2 ⊢
    obtain ⟨u, hu, hu'⟩ := Option.map_eq_some_iff.1 e1
    obtain ⟨v, hv, hv'⟩ := Option.map_eq_some_iff.1 e2
    have hu' := Sum.inl_injective hu'
    have hv' := Sum.inl_injective hv'
    rw [List.getElem?_append_left (by simp only [List.length_zipWith, List.length_take]; omega), List.getElem?_zipWith, List.getElem?_take_of_lt han, hu, hv,
      ← hu', ← hv']
    rfl

/-- A transform, work on the spectrum and a transform back. -/
theorem through_with {P : Field α β → Prop} (hl : bout.length = bin.length) (hreal : ∀ r, r < bin.length → inplace r = true → realIn = false)
    (ha : CallArrays bin bout realIn false need nb inplace xs G)
    (fw : ∃ ms, there xs = .ok ms ∧ Outcome bout nb xs ms (.inl F))
    (hf : ∀ r m0 x, xs[r]? = some m0 → Alike x m0.output → (∀ j, j < nb → HoldsSlot (boxAt bout r) j x (.inl F)) →
      ∃ y, f r x = .ok y ∧ Alike y x ∧ ∀ j, j < nb → HoldsSlot (boxAt bout r) j y (.inl F'))
    (bw : ∀ bs, CallArrays bout bin false realIn need nb inplace bs (.inl F') →
      ∃ ms H, back bs = .ok ms ∧ Outcome bin nb bs ms H ∧ P H) :
    ∃ ms H, throughWith there back inplace f xs = .ok ms ∧ Replaced bin nb inplace xs ms H ∧ P H := by
  obtain ⟨ms, e1, o1⟩ := fw
  have get : ∀ {r : Nat} {m}, ms[r]? = some m → ∃ m0, xs[r]? = some m0 ∧ Stays m0 m := by
    intro r m hm
    have hr : r < xs.length := by rw [← o1.ranks]; exact (List.getElem?_eq_some_iff.1 hm).1
    exact ⟨xs[r], List.getElem?_eq_getElem hr, o1.same r _ m (List.getElem?_eq_getElem hr) hm⟩
  obtain ⟨bs, e2, hbl, hb⟩ := mapRes_exists (f := fun r m => do
    let x ← f r m.output
    (.ok (backMem (inplace r) m x) : Res (Mem α β))) ms 0 fun r m hm => by
      obtain ⟨m0, h0, st⟩ := get hm
      obtain ⟨y, hy, -⟩ := hf r m0 m.output h0 st.output (o1.values r m hm)
      exact ⟨backMem (inplace r) m y, by rw [Nat.zero_add, res_bind_ok hy]⟩
  have backs : ∀ {r : Nat} {b}, bs[r]? = some b → ∃ m0 m y, xs[r]? = some m0 ∧ ms[r]? = some m ∧ r < bin.length ∧ b = backMem (inplace r) m y ∧ m.input = m0.input ∧
      m.work.length = m0.work.length ∧ Alike y m0.output ∧ ∀ j, j < nb → HoldsSlot (boxAt bout r) j y (.inl F') := by
    intro r b hbr
    have hr : r < ms.length := by rw [← hbl]; exact (List.getElem?_eq_some_iff.1 hbr).1
    have hm := List.getElem?_eq_getElem hr
    obtain ⟨m0, h0, st⟩ := get hm
    obtain ⟨y, hy, al, hh⟩ := hf r m0 _ h0 st.output (o1.values r _ hm)
    have h1 := hb r _ b hm hbr
    rw [Nat.zero_add, res_bind_ok hy] at h1
    exact ⟨m0, ms[r], y, h0, hm, by rw [← ha.ranks, ← o1.ranks]; exact hr, (Except.ok.inj h1).symm, st.input, st.work, al.trans st.output, hh⟩
  have hca : CallArrays bout bin false realIn need nb inplace bs (.inl F') := by
    refine ⟨by rw [hbl, o1.ranks, ha.ranks, hl], ?_, ?_, ?_, ?_, ?_, ?_⟩
    all_goals
      intro r b hbr
      obtain ⟨m0, m, y, h0, hm, hrl, rfl, hin, hwk, al, hh⟩ := backs hbr
      have q1 := ha.input r m0 h0
      have q2 := ha.output r m0 h0
      have q3 := ha.inputSize r m0 h0
      have q4 := ha.outputSize r m0 h0
      have q5 := ha.work r m0 h0
      have q6 := hreal r hrl
      unfold backMem
      cases hi : inplace r <;> simp only [hi, Bool.false_eq_true, if_true, if_false] at q3 q6 ⊢
    · rw [al.1, q2]
    · rw [hin, q1, q6 trivial]
    · rw [hin, q1]
    · rw [al.1, q2, q6 trivial]
    · rw [al.2]; exact q4
    · rw [al.2]; exact q4
    · rw [hin]; exact q3
    · rw [al.2]; exact q3
    · exact hh
    · exact hh
    · rw [hwk]; exact q5
    · rw [hwk]; exact q5
  obtain ⟨out, H, e3, o3, hP⟩ := bw bs hca
  refine ⟨out, H, ?_, ⟨by rw [o3.ranks, hbl, o1.ranks], fun r m0 m h0 hm => ?_, o3.values⟩, hP⟩
  · unfold throughWith
    rw [res_bind_ok e1, res_bind_ok e2, e3]
  · have hr : r < bs.length := by rw [← o3.ranks]; exact (List.getElem?_eq_some_iff.1 hm).1
    have hbr := List.getElem?_eq_getElem hr
    have st := (o3.same r _ m hbr hm).output
    obtain ⟨m0', m', y, h0', hm', hrl, hbe, hin, hwk, al, hh⟩ := backs hbr
    obtain rfl := Option.some.inj (h0.symm.trans h0')
    rw [hbe] at st
    unfold backMem at st
    unfold inputOf
    cases hi : inplace r <;> simp only [hi, Bool.false_eq_true, if_true, if_false] at st ⊢
    · rw [hin] at st; exact st
    · exact st.trans al

theorem Replaced.congr {ms : List (Mem α β)} {w : Box} (h : Replaced bin nb inplace xs ms G) (ht : Tiles bin w) (hl : xs.length = bin.length)
    (hF : ∀ j, j < nb → ∀ p ∈ w, G.val j p = H.val j p) : Replaced bin nb inplace xs ms H := by
  refine ⟨h.ranks, h.same, fun r m hr j hj p hp => ?_⟩
  have hr' : r < bin.length := by rw [← hl, ← h.ranks]; exact (List.getElem?_eq_some_iff.1 hr).1
  rw [h.values r m hr j hj p hp, hF j hj p (ht.mem_world (boxAt_mem hr') hp)]

/-- The loops of the programs stay in the arrays and cover the box of each rank. -/
def LoopsFit (bout : List Box) (nb : Nat) (n : Nat → Nat) (xs ys : List (Mem α β)) : Prop :=
  ∀ (r : Nat) x y, xs[r]? = some x → ys[r]? = some y → nb * (boxAt bout r).points.card ≤ n r ∧ n r ≤ x.output.size ∧ n r ≤ y.output.size

/-- The program with two arrays. -/
theorem convolveWith_values [Mul α] {P : Field α β → Prop} {inplaceY : Nat → Bool} {n : Nat → Nat} {ys : List (Mem α β)} {G' : Field α β} {Fy : Nat → A3 Int → α}
    (hl : bout.length = bin.length) (ho : ∀ b ∈ bout, IsOrder b.order) (hreal : ∀ r, r < bin.length → inplace r = true → realIn = false)
    (ha : CallArrays bin bout realIn false need nb inplace xs G) (hb : CallArrays bin bout realIn false need nb inplaceY ys G') (hn : LoopsFit bout nb n xs ys)
    (fw : ∃ ms, there xs = .ok ms ∧ Outcome bout nb xs ms (.inl F))
    (fy : ∃ ms, thereY ys = .ok ms ∧ Outcome bout nb ys ms (.inl Fy))
    (bw : ∀ bs, CallArrays bout bin false realIn need nb inplace bs (.inl fun j p => F j p * Fy j p) →
      ∃ ms H, back bs = .ok ms ∧ Outcome bin nb bs ms H ∧ P H) :
    ∃ ms H, convolveWith there thereY back inplace n xs ys = .ok ms ∧ Replaced bin nb inplace xs ms H ∧ P H := by
  obtain ⟨my, e1, o1⟩ := fy
  unfold convolveWith
  rw [res_bind_ok e1]
  refine through_with hl hreal ha fw (F' := fun j p => F j p * Fy j p) (fun r m0 x h0 al hx => ?_) bw
  have hr : r < xs.length := (List.getElem?_eq_some_iff.1 h0).1
  have hry : r < ys.length := by rw [hb.ranks, ← ha.ranks]; exact hr
  have hy := List.getElem?_eq_getElem hry
  have hm := List.getElem?_eq_getElem (l := my) (i := r) (by rw [o1.ranks]; exact hry)
  rw [hm]
  have st := (o1.same r _ _ hy hm).output
  obtain ⟨n1, n2, n3⟩ := hn r _ _ h0 hy
  exact multiplyArrays_holds (ho _ (boxAt_mem (by rw [hl, ← ha.ranks]; exact hr))) (by rw [al.1]; exact ha.output r m0 h0) (by rw [st.1]; exact hb.output r _ hy) n1
    (by rw [al.2]; exact n2) (by rw [st.2]; exact n3) hx (o1.values r _ hm)

end

section
variable {ob : Object} {K : Kernel ℂ ℝ} {W Wy W' : World ℂ ℝ} {mode mode' : Mode} {nb : Nat} {inplace inplaceY : Nat → Bool} {s sy s' : Scaling}
  {f : Nat → Data ℂ ℝ → Res (Data ℂ ℝ)} {xs ys : List (Mem ℂ ℝ)} {bin bout : List Box} {need : Nat → Int} {realIn : Bool} {G G' H : Field ℂ ℝ}
  {F F' Fy : Nat → A3 Int → ℂ} {n : Nat → Nat}

/-- The same in exact arithmetic. -/
theorem through_spectrum (hl : bout.length = bin.length) (hreal : ∀ r, r < bin.length → inplace r = true → realIn = false)
    (ha : CallArrays bin bout realIn false need nb inplace xs G)
    (fw : ∃ ms, perform ob K W mode true nb inplace s xs = .ok ms ∧ Outcome bout nb xs ms (.inl F))
    (hf : ∀ r m0 x, xs[r]? = some m0 → Alike x m0.output → (∀ j, j < nb → HoldsSlot (boxAt bout r) j x (.inl F)) →
      ∃ y, f r x = .ok y ∧ Alike y x ∧ ∀ j, j < nb → HoldsSlot (boxAt bout r) j y (.inl F'))
    (bw : ∀ bs, CallArrays bout bin false realIn need nb inplace bs (.inl F') →
      ∃ ms, perform ob K W' mode' false nb inplace s' bs = .ok ms ∧ Outcome bin nb bs ms H) :
    ∃ ms, throughSpectrum ob K W W' mode mode' nb inplace s s' f xs = .ok ms ∧ Replaced bin nb inplace xs ms H :=
  let ⟨ms, _, h1, h2, h3⟩ := through_with (P := (· = H)) hl hreal ha fw hf fun bs hbs => let ⟨ms, h1, h2⟩ := bw bs hbs; ⟨ms, H, h1, h2, rfl⟩
  ⟨ms, h1, h3 ▸ h2⟩

theorem convolve_values (hl : bout.length = bin.length) (ho : ∀ b ∈ bout, IsOrder b.order) (hreal : ∀ r, r < bin.length → inplace r = true → realIn = false)
    (ha : CallArrays bin bout realIn false need nb inplace xs G) (hb : CallArrays bin bout realIn false need nb inplaceY ys G') (hn : LoopsFit bout nb n xs ys)
    (fw : ∃ ms, perform ob K W mode true nb inplace s xs = .ok ms ∧ Outcome bout nb xs ms (.inl F))
    (fy : ∃ ms, perform ob K Wy mode true nb inplaceY sy ys = .ok ms ∧ Outcome bout nb ys ms (.inl Fy))
    (bw : ∀ bs, CallArrays bout bin false realIn need nb inplace bs (.inl fun j p => F j p * Fy j p) →
      ∃ ms, perform ob K W' mode' false nb inplace s' bs = .ok ms ∧ Outcome bin nb bs ms H) :
    ∃ ms, convolve ob K W Wy W' mode mode' nb inplace inplaceY s sy s' n xs ys = .ok ms ∧ Replaced bin nb inplace xs ms H :=
  let ⟨ms, _, h1, h2, h3⟩ := convolveWith_values (P := (· = H)) hl ho hreal ha hb hn fw fy fun bs hbs => let ⟨ms, h1, h2⟩ := bw bs hbs; ⟨ms, H, h1, h2, rfl⟩
  ⟨ms, h1, h3 ▸ h2⟩

end

end Verif
