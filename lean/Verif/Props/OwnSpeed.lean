import Verif.OwnPlans
import Verif.Props.Calls

/-!
# Ranks that run at their own speed (C74)

Every rank runs the program of the user on its own (`ownNext`); the network delivers the messages between two ranks on one communicator in
order, everything else is left open: `Net.Runs n next k a b` is a history of `k` steps of any ranks, `Net.Move` is a possible next step.
-/

namespace Verif
open Stock

section
variable {α β υ : Type}

/-- C74: any program with any number of transforms of constructed objects.  What holds after the calls when all the ranks meet in each
reshape, for all possible orders of the messages, also holds when every rank runs at its own speed: no step is undefined, some rank can
always go on until all the ranks have completed all their calls, the number of steps is bounded, no message is left over. -/
theorem C74_own_speed {K : Kernel α β} {calls : List (OwnCall υ α β)} {n : Nat} {us : Nat → υ} {Q : List υ → Prop} {plan : Nat → Plan}
    (hM : ∀ c (C : OwnCall υ α β), calls[c]? = some C → C.Made n (plan c))
    (h : ∀ D : Nat → Fin 4 → Nat → List Nat, (∀ c (C : OwnCall υ α β), calls[c]? = some C → ∀ i, ArrivalOrder ((plan c).before C.fwd i) ((plan c).after C.fwd i) (D c i)) →
      ∃ us', allTogether K (withOrders D calls) ((List.range n).map us) = .ok us' ∧ Q us')
    {k : Nat} {st : Net (Option (Nat × Bool × Fin 4)) (Packet α β) (OwnRank υ α β)} (hr : Net.Runs n (ownNext K anyOrder calls) k (ownStart us) st) :
    k ≤ ∑ r ∈ Finset.range n, (calls.map fun C => C.steps r).sum ∧
    (∀ r, r < n → ownNext K anyOrder calls r (st.loc r) ≠ .fail) ∧
    ((∃ st', Net.Move n (ownNext K anyOrder calls) st st') ∨
      ((∀ r, r < n → (st.loc r).calls = calls.length) ∧ (∀ key s d, st.chan key s d = []) ∧ Q ((List.range n).map fun r => (st.loc r).user))) :=
  own_speed_made hM h hr

theorem runs_snoc {κ μ ρ : Type} [DecidableEq κ] {n : Nat} {next : Nat → ρ → Todo κ μ ρ} : ∀ {k : Nat} {a b c : Net κ μ ρ}, Net.Runs n next k a b → Net.Move n next b c →
    Net.Runs n next (k + 1) a c
  | _, _, _, _, .refl _, h => .step h (.refl _)
  | _, _, _, _, .step h0 h1, h => .step h0 (runs_snoc h1 h)

/-- A history can be continued as long as there is a next step; with a bound it comes to an end. -/
theorem runs_end {κ μ ρ : Type} [DecidableEq κ] {n : Nat} {next : Nat → ρ → Todo κ μ ρ} {a : Net κ μ ρ} {B : Nat} (hB : ∀ k b, Net.Runs n next k a b → k ≤ B) :
    ∀ (j k : Nat) (b : Net κ μ ρ), B - k ≤ j → Net.Runs n next k a b → ∃ k' c, Net.Runs n next k' a c ∧ ¬ ∃ c', Net.Move n next c c'
  | 0, k, b, hj, h => by
    refine ⟨k, b, h, fun ⟨c, hc⟩ => ?_⟩
    have := hB _ _ (runs_snoc h hc)
    have := hB _ _ h
    omega
  | j + 1, k, b, hj, h => by
    by_cases hc : ∃ c, Net.Move n next b c
    · obtain ⟨c, hc⟩ := hc
      exact runs_end hB j (k + 1) c (by omega) (runs_snoc h hc)
    · exact ⟨k, b, h, hc⟩

/-! ## Calls of transform objects on several sets of arrays -/

theorem allTogether_keeps {K : Kernel α β} {P : Nat → List υ → Prop} : ∀ {calls : List (OwnCall υ α β)} {k : Nat} {us : List υ}, P k us →
    (∀ c (C : OwnCall υ α β) us, calls[c]? = some C → P (k + c) us → ∃ us', C.together K us = .ok us' ∧ P (k + c + 1) us') →
    ∃ us', allTogether K calls us = .ok us' ∧ P (k + calls.length) us'
  | [], k, us, h0, _ => ⟨us, rfl, h0⟩
  | C :: t, k, us, h0, h => by
    obtain ⟨us1, h1, h2⟩ := h 0 C us rfl h0
    obtain ⟨us', h3, h4⟩ := allTogether_keeps (K := K) (P := P) (calls := t) (k := k + 1) h2 (fun c C' us hC hP => by
      have := h (c + 1) C' us (by simpa using hC) (by rw [show k + (c + 1) = k + 1 + c by omega]; exact hP)
      rw [show k + (c + 1) + 1 = k + 1 + c + 1 by omega] at this
      exact this)
    refine ⟨us', ?_, by rw [List.length_cons, show k + (t.length + 1) = k + 1 + t.length by omega]; exact h4⟩
    unfold allTogether
    simp only [bind, Except.bind]
    rw [h1]
    exact h3

end

/-- A call in a program: the number of the plan, the object, the kind of call, the scaling, the environment. -/
structure Task where
  number : Nat
  object : Object
  mode : Mode
  fwd : Bool
  nb : Nat
  inplace : Nat → Bool
  scaling : Scaling
  world : World ℂ ℝ

/-- The call number `c` works with the set of arrays number `c`: the transform and the scaling. -/
noncomputable def Task.own (T : Task) (c : Nat) : OwnCall (Nat → Mem ℂ ℝ) ℂ ℝ where
  plan := T.number
  fft := T.object.fft
  mode := T.mode
  fwd := T.fwd
  nb := T.nb
  inplace := T.inplace
  world := T.world
  args := fun _ u => u c
  result := fun r u m => do
    let m ← applyScale (fun x z => (x : ℂ) * z) (fun x y => x * y) T.object T.fwd T.nb T.scaling r m
    .ok (Function.update u c m)

noncomputable def taskCalls (tasks : List Task) : List (OwnCall (Nat → Mem ℂ ℝ) ℂ ℝ) := tasks.mapIdx fun c T => T.own c

/-- What is known of a call in lockstep: the object comes from a constructor, and the call succeeds with the result `R` for all the orders
of the messages. -/
structure Task.Known (K : Kernel ℂ ℝ) (n : Nat) (T : Task) (m0s : List (Mem ℂ ℝ)) (R : List (Mem ℂ ℝ) → Prop) : Prop where
  made : ∃ r2c wi wo alg ex, PlanFacts T.object.plan r2c wi wo n ∧ SetupOk alg T.object.plan T.object.fft n ex
  call : ∀ D, (∀ i, ArrivalOrder (T.object.plan.before T.fwd i) (T.object.plan.after T.fwd i) (D i)) →
    ∃ ms, perform T.object K { T.world with done := D } T.mode T.fwd T.nb T.inplace T.scaling m0s = .ok ms ∧ R ms

section
variable {K : Kernel ℂ ℝ} {n : Nat} {tasks : List Task} {us : Nat → Nat → Mem ℂ ℝ} {R : Nat → List (Mem ℂ ℝ) → Prop}

theorem mapRes_update {f : Nat → Mem ℂ ℝ → Res (Mem ℂ ℝ)} (c : Nat) : ∀ {ms ms' : List (Mem ℂ ℝ)} {us : List (Nat → Mem ℂ ℝ)} {k : Nat}, us.length = ms.length → mapRes f k ms = .ok ms' →
    mapRes (fun r (x : (Nat → Mem ℂ ℝ) × Mem ℂ ℝ) => do let m ← f r x.2; .ok (Function.update x.1 c m)) k (us.zip ms) =
      .ok (List.zipWith (fun u m => Function.update u c m) us ms')
  | [], ms', us, k, hl, h => by
    obtain rfl := Except.ok.inj h
    obtain rfl := List.length_eq_zero_iff.1 hl
    rfl
  | m :: t, ms', [], k, hl, h => by cases hl
  | m :: t, ms', u :: us, k, hl, h => by
    unfold mapRes at h
    cases h1 : f k m with
    | error e => rw [h1] at h; cases h
    | ok m1 =>
      rw [h1] at h
      cases h2 : mapRes f (k + 1) t with
      | error e => rw [h2] at h; cases h
      | ok t1 =>
        rw [h2] at h
        obtain rfl := Except.ok.inj h
        have ih := mapRes_update (f := f) c (us := us) (Nat.succ.inj hl) h2
        rw [List.zip_cons_cons]
        unfold mapRes
        simp only [bind, Except.bind] at ih ⊢
        rw [h1]
        simp only
        rw [ih]
        rfl

theorem task_step {T : Task} {c : Nat} {D : Fin 4 → Nat → List Nat} {vs : List (Nat → Mem ℂ ℝ)} {ms : List (Mem ℂ ℝ)}
    (h : perform T.object K { T.world with done := D } T.mode T.fwd T.nb T.inplace T.scaling (vs.map (· c)) = .ok ms) (hl : ms.length = vs.length) :
    ((T.own c).withOrder D).together K vs = .ok (List.zipWith (fun u m => Function.update u c m) vs ms) := by
  unfold perform Object.call at h
  unfold OwnCall.together OwnCall.withOrder Task.own
  have e : (vs.mapIdx fun (_ : Nat) (u : Nat → Mem ℂ ℝ) => u c) = vs.map (· c) := by
    apply List.ext_getElem?
    intro i
    rw [List.getElem?_mapIdx, List.getElem?_map]
  simp only [e]
  cases h1 : transform K { T.world with done := D } T.mode T.object.fft T.fwd T.nb T.inplace (vs.map (· c)) with
  | error e => rw [h1] at h; cases h
  | ok m1 =>
    rw [h1] at h
    simp only [bind, Except.bind] at h ⊢
    have hl1 : vs.length = m1.length := by rw [← hl, (mapRes_get h).1]
    exact mapRes_update c hl1 h

/-- C74: a program with any number of calls of any plans, directions and kinds, each with its own arrays, by ranks at their own speed.  If
each of the calls alone, with all the ranks meeting in each reshape, has the result `R c`, then every history of the program is free of
undefined behaviour, can be continued until all the calls are complete, has a bounded length, and ends with all the results. -/
theorem C74_program (h : ∀ c (T : Task), tasks[c]? = some T → T.Known K n ((List.range n).map fun r => us r c) (R c))
    (hR : ∀ c T ms, tasks[c]? = some T → R c ms → ms.length = n)
    {k : Nat} {st : Net (Option (Nat × Bool × Fin 4)) (Packet ℂ ℝ) (OwnRank (Nat → Mem ℂ ℝ) ℂ ℝ)} (hr : Net.Runs n (ownNext K anyOrder (taskCalls tasks)) k (ownStart us) st) :
    k ≤ ∑ r ∈ Finset.range n, ((taskCalls tasks).map fun C => C.steps r).sum ∧
    (∀ r, r < n → ownNext K anyOrder (taskCalls tasks) r (st.loc r) ≠ .fail) ∧
    ((∃ st', Net.Move n (ownNext K anyOrder (taskCalls tasks)) st st') ∨
      ((∀ r, r < n → (st.loc r).calls = tasks.length) ∧ (∀ key s d, st.chan key s d = []) ∧
        ∀ c T, tasks[c]? = some T → R c ((List.range n).map fun r => (st.loc r).user c))) := by
  have hget : ∀ c C, (taskCalls tasks)[c]? = some C → ∃ T : Task, tasks[c]? = some T ∧ C = T.own c := by
    intro c C hC
    unfold taskCalls at hC
    rw [List.getElem?_mapIdx, Option.map_eq_some_iff] at hC
    obtain ⟨T, hT, rfl⟩ := hC
    exact ⟨T, hT, rfl⟩
  have hlen : (taskCalls tasks).length = tasks.length := by unfold taskCalls; simp
  have key := C74_own_speed (K := K) (calls := taskCalls tasks) (n := n) (us := us)
    (Q := fun vs => ∀ c T, tasks[c]? = some T → R c (vs.map (· c))) (plan := fun c => match tasks[c]? with
      | some T => T.object.plan
      | none => ⟨[], [], [], [], [], [], [], [], ⟨0, 0, 0⟩, ⟨0, 1, 2⟩, 0⟩) (fun c C hC => by
        obtain ⟨T, hT, rfl⟩ := hget c C hC
        simp only [hT]
        exact (h c T hT).made) (fun D hD => by
        obtain ⟨us', h1, h2⟩ := allTogether_keeps (K := K) (calls := withOrders D (taskCalls tasks)) (k := 0) (us := (List.range n).map us)
          (P := fun k vs => vs.length = n ∧ (∀ c T, c < k → tasks[c]? = some T → R c (vs.map (· c))) ∧
            ∀ c, k ≤ c → vs.map (· c) = (List.range n).map fun r => us r c)
          ⟨by simp, fun c T hc => absurd hc (Nat.not_lt_zero c), fun c _ => by rw [List.map_map]; rfl⟩ (fun c C vs hC hP => by
            obtain ⟨hl, hold, hnew⟩ := hP
            unfold withOrders at hC
            rw [List.getElem?_mapIdx, Option.map_eq_some_iff] at hC
            obtain ⟨C', hC', rfl⟩ := hC
            obtain ⟨T, hT, rfl⟩ := hget c C' hC'
            have hD' := hD c _ hC'
            simp only [hT] at hD'
            obtain ⟨ms, h1, h2⟩ := (h c T hT).call (D c) hD'
            rw [← hnew c (by omega)] at h1
            have hml := hR c T ms hT h2
            refine ⟨_, task_step h1 (by rw [hml, hl]), ?_, ?_, ?_⟩
            · rw [List.length_zipWith, hl, hml, Nat.min_self]
            · intro c' T' hc' hT'
              by_cases e : c' = c
              · subst e
                have : (List.zipWith (fun u m => Function.update u c' m) vs ms).map (· c') = ms := by
                  apply List.ext_getElem
                  · rw [List.length_map, List.length_zipWith, hl, hml, Nat.min_self]
                  · intro i _ _
                    simp
                rw [this]
                obtain rfl := Option.some.inj (hT.symm.trans hT')
                exact h2
              · have : (List.zipWith (fun u m => Function.update u c m) vs ms).map (· c') = vs.map (· c') := by
                  apply List.ext_getElem
                  · rw [List.length_map, List.length_zipWith, hl, hml, Nat.min_self, List.length_map, hl]
                  · intro i _ _
                    simp [Function.update_of_ne e]
                rw [this]
                exact hold c' T' (by omega) hT'
            · intro c' hc'
              rw [← hnew c' (by omega)]
              apply List.ext_getElem
              · rw [List.length_map, List.length_zipWith, hl, hml, Nat.min_self, List.length_map, hl]
              · intro i _ _
                simp [Function.update_of_ne (show c' ≠ c by omega)])
        refine ⟨us', h1, fun c T hT => h2.2.1 c T ?_ hT⟩
        have := (List.getElem?_eq_some_iff.1 hT).1
        rw [Nat.zero_add]
        unfold withOrders
        rw [List.length_mapIdx, hlen]
        exact this) hr
  obtain ⟨k1, k2, k3⟩ := key
  refine ⟨k1, k2, k3.imp id fun ⟨h1, h2, h3⟩ => ⟨fun r hrn => by rw [h1 r hrn, hlen], h2, fun c T hT => ?_⟩⟩
  have := h3 c T hT
  rw [List.map_map] at this
  exact this

/-- C74: there is a complete history (and every history can be continued to one, `C74_program`). -/
theorem C74_completes (h : ∀ c (T : Task), tasks[c]? = some T → T.Known K n ((List.range n).map fun r => us r c) (R c))
    (hR : ∀ c T ms, tasks[c]? = some T → R c ms → ms.length = n)
    {k : Nat} {st : Net (Option (Nat × Bool × Fin 4)) (Packet ℂ ℝ) (OwnRank (Nat → Mem ℂ ℝ) ℂ ℝ)} (hr : Net.Runs n (ownNext K anyOrder (taskCalls tasks)) k (ownStart us) st) :
    ∃ k' st', Net.Runs n (ownNext K anyOrder (taskCalls tasks)) k' (ownStart us) st' ∧
      (∀ r, r < n → (st'.loc r).calls = tasks.length) ∧ (∀ key s d, st'.chan key s d = []) ∧
        ∀ c T, tasks[c]? = some T → R c ((List.range n).map fun r => (st'.loc r).user c) := by
  obtain ⟨k', st', h1, h2⟩ := runs_end (fun j b hj => (C74_program h hR hj).1) _ k st le_rfl hr
  obtain ⟨-, -, h3⟩ := C74_program h hR h1
  rcases h3 with h3 | h3
  · exact absurd h3 h2
  · exact ⟨k', st', h1, h3⟩

end

/-! ## Calls of the stock backend -/

section
variable {w n : Nat} {junk : Tag → Int × Int → Scratch} {inp : Tag → Int × Int → Arr ℂ}

/-- The environment of a call without the orders of the messages. -/
structure WorldFine (W : World ℂ ℝ) : Prop where
  stride : 0 < W.stride
  junk : ∀ i r l, (W.junk i r l).length = l.length
  junkReal : ∀ i r l, (W.junkReal i r l).length = l.length

/-- The calls of the stock backend, with the boxes of the result and the values: complex data, real data of an `fft3d`, real data of an
`fft3d_r2c`. -/
inductive StockTask (n : Nat) (T : Task) (m0s : List (Mem ℂ ℝ)) : List Box → Field ℂ ℝ → Prop
  | complex {bin bout : List Box} {wi wo : Box} {opts : Opts} {g : Nat → A3 Int → ℂ} (S : StockC2C bin bout wi wo opts T.object) (ranks : bin.length = n)
    (mode : T.mode = .same)
    (arrays : CallArrays (srcBoxes T.fwd bin bout) (dstBoxes T.fwd bin bout) false false (T.object.sizeWorkspace noWork) T.nb T.inplace m0s (.inl g))
    (source : SourceHolds (srcBoxes T.fwd bin bout) T.inplace) :
    StockTask n T m0s (dstBoxes T.fwd bin bout) (.inl fun j p => (T.scaling.factor wi.count : ℂ) * dft3 T.fwd wi (g j) p)
  | realForward {bin bout : List Box} {wi wo : Box} {opts : Opts} {g : Nat → A3 Int → ℝ} (S : StockC2C bin bout wi wo opts T.object) (ranks : bin.length = n)
    (mode : T.mode = .r2c) (fwd : T.fwd = true) (inplace : T.inplace = fun _ => false)
    (arrays : CallArrays bin bout true false (T.object.sizeWorkspace noWork) T.nb (fun _ => false) m0s (.inr g)) :
    StockTask n T m0s bout (.inl fun j p => (T.scaling.factor wi.count : ℂ) * dft3 true wi (fun q => (g j q : ℂ)) p)
  | realBackward {bin bout : List Box} {wi wo : Box} {opts : Opts} {g : Nat → A3 Int → ℂ} (S : StockC2C bin bout wi wo opts T.object) (ranks : bin.length = n)
    (mode : T.mode = .c2r) (fwd : T.fwd = false) (inplace : T.inplace = fun _ => false)
    (arrays : CallArrays bout bin false true (T.object.sizeWorkspace noWork) T.nb (fun _ => false) m0s (.inl g))
    (source : SourceHolds bout fun _ => false) :
    StockTask n T m0s bin (.inr fun j p => T.scaling.factor wi.count * (dft3 false wi (g j) p).re)
  | halfForward {bin bout : List Box} {d : Fin 3} {wi wo : Box} {opts : Opts} {g : Nat → A3 Int → ℝ} (S : StockR2C bin bout d wi wo opts T.object)
    (ranks : bin.length = n) (mode : T.mode = .r2c) (fwd : T.fwd = true) (inplace : T.inplace = fun _ => false)
    (arrays : CallArrays bin bout true false (T.object.sizeWorkspace noWork) T.nb (fun _ => false) m0s (.inr g))
    (half : T.nb = 1 ∨ ReshapesAfter T.object bin.length) :
    StockTask n T m0s bout (.inl fun j p => (T.scaling.factor wi.count : ℂ) * dft3 true wi (fun q => (g j q : ℂ)) p)
  | halfBackward {bin bout : List Box} {d : Fin 3} {wi wo : Box} {opts : Opts} {g : Nat → A3 Int → ℂ} (S : StockR2C bin bout d wi wo opts T.object)
    (ranks : bin.length = n) (mode : T.mode = .c2r) (fwd : T.fwd = false) (inplace : T.inplace = fun _ => false)
    (arrays : CallArrays bout bin false true (T.object.sizeWorkspace noWork) T.nb (fun _ => false) m0s (.inl g))
    (source : SourceHolds bout fun _ => false) :
    StockTask n T m0s bin (.inr fun j p => T.scaling.factor wi.count * c2r3 wi d (g j) p)

theorem stock_known (hw : 0 < w) {T : Task} {m0s : List (Mem ℂ ℝ)} {dst : List Box} {F : Field ℂ ℝ} (hn : 0 < T.nb) (hf : WorldFine T.world) (h : StockTask n T m0s dst F) :
    T.Known (stockKernel w junk inp) n m0s fun ms => Outcome dst T.nb m0s ms F := by
  have hW : ∀ D, (∀ i, ArrivalOrder (T.object.plan.before T.fwd i) (T.object.plan.after T.fwd i) (D i)) → WorldOk { T.world with done := D } T.object.plan T.fwd :=
    fun D hD => ⟨hf.stride, hD, hf.junk, hf.junkReal⟩
  cases h with
  | complex S ranks mode arrays source =>
    subst ranks
    obtain ⟨-, -, hp, -, -, -, -, hs⟩ := makeFft3d_ok S.geo S.made
    refine ⟨⟨_, _, _, _, _, hp, hs⟩, fun D hD => ?_⟩
    rw [mode]
    exact C40_complex S hw (hW D hD) hn arrays source
  | realForward S ranks mode fwd inplace arrays =>
    subst ranks
    obtain ⟨-, -, hp, -, -, -, -, hs⟩ := makeFft3d_ok S.geo S.made
    refine ⟨⟨_, _, _, _, _, hp, hs⟩, fun D hD => ?_⟩
    have hW := hW D hD
    rw [fwd] at hW
    rw [mode, fwd, inplace]
    exact C40_real S hw hW hn arrays
  | realBackward S ranks mode fwd inplace arrays source =>
    subst ranks
    obtain ⟨-, -, hp, -, -, -, -, hs⟩ := makeFft3d_ok S.geo S.made
    refine ⟨⟨_, _, _, _, _, hp, hs⟩, fun D hD => ?_⟩
    have hW := hW D hD
    rw [fwd] at hW
    rw [mode, fwd, inplace]
    exact C52_real S hw hW hn arrays source
  | halfForward S ranks mode fwd inplace arrays half =>
    subst ranks
    obtain ⟨hp, -, -, -, -, -, hs⟩ := makeFft3dR2C_ok S.geo S.first S.small S.made
    refine ⟨⟨_, _, _, _, _, hp, hs⟩, fun D hD => ?_⟩
    have hW := hW D hD
    rw [fwd] at hW
    rw [mode, fwd, inplace]
    exact C53_forward S hw hW hn arrays half
  | halfBackward S ranks mode fwd inplace arrays source =>
    subst ranks
    obtain ⟨hp, -, -, -, -, -, hs⟩ := makeFft3dR2C_ok S.geo S.first S.small S.made
    refine ⟨⟨_, _, _, _, _, hp, hs⟩, fun D hD => ?_⟩
    have hW := hW D hD
    rw [fwd] at hW
    rw [mode, fwd, inplace]
    exact C53_backward S hw hW hn arrays source

/-- C74: a program with any number of calls of any plans of the stock backend, complex and real, forward and backward, by ranks at their own
speed: every history is free of undefined behaviour, can be continued until all the calls are complete, has a bounded length, and ends with
the three dimensional transforms in the arrays of all the calls. -/
theorem C74_transforms (hw : 0 < w) {tasks : List Task} {us : Nat → Nat → Mem ℂ ℝ} {dst : Nat → List Box} {F : Nat → Field ℂ ℝ}
    (h : ∀ c (T : Task), tasks[c]? = some T → 0 < T.nb ∧ WorldFine T.world ∧ StockTask n T ((List.range n).map fun r => us r c) (dst c) (F c))
    {k : Nat} {st : Net (Option (Nat × Bool × Fin 4)) (Packet ℂ ℝ) (OwnRank (Nat → Mem ℂ ℝ) ℂ ℝ)}
    (hr : Net.Runs n (ownNext (stockKernel w junk inp) anyOrder (taskCalls tasks)) k (ownStart us) st) :
    k ≤ ∑ r ∈ Finset.range n, ((taskCalls tasks).map fun C => C.steps r).sum ∧
    (∀ r, r < n → ownNext (stockKernel w junk inp) anyOrder (taskCalls tasks) r (st.loc r) ≠ .fail) ∧
    ((∃ st', Net.Move n (ownNext (stockKernel w junk inp) anyOrder (taskCalls tasks)) st st') ∨
      ((∀ r, r < n → (st.loc r).calls = tasks.length) ∧ (∀ key s d, st.chan key s d = []) ∧
        ∀ c (T : Task), tasks[c]? = some T →
          Outcome (dst c) T.nb ((List.range n).map fun r => us r c) ((List.range n).map fun r => (st.loc r).user c) (F c))) := by
  obtain ⟨h1, h2, h3⟩ := C74_program (K := stockKernel w junk inp) (R := fun c ms => ∀ T : Task, tasks[c]? = some T → Outcome (dst c) T.nb ((List.range n).map fun r => us r c) ms (F c))
    (fun c T hT => by
      obtain ⟨a, b, d⟩ := h c T hT
      obtain ⟨e, f⟩ := stock_known (junk := junk) (inp := inp) hw a b d
      refine ⟨e, fun D hD => ?_⟩
      obtain ⟨ms, g1, g2⟩ := f D hD
      refine ⟨ms, g1, fun T' hT' => ?_⟩
      obtain rfl := Option.some.inj (hT.symm.trans hT')
      exact g2) (fun c T ms hT hR => by rw [(hR T hT).ranks]; simp) hr
  exact ⟨h1, h2, h3.imp id fun ⟨a, b, d⟩ => ⟨a, b, fun c T hT => d c T hT T hT⟩⟩

/-! ## Two calls on the same arrays -/

/-- A call on the arrays of the user; `next` is what the rank does with them before the call (exchange the arrays, for example). -/
noncomputable def Task.onto (T : Task) (next : Nat → Mem ℂ ℝ → Mem ℂ ℝ) : OwnCall (Mem ℂ ℝ) ℂ ℝ where
  plan := T.number
  fft := T.object.fft
  mode := T.mode
  fwd := T.fwd
  nb := T.nb
  inplace := T.inplace
  world := T.world
  args := next
  result := fun r _ m => applyScale (fun x z => (x : ℂ) * z) (fun x y => x * y) T.object T.fwd T.nb T.scaling r m

theorem mapRes_second {f : Nat → Mem ℂ ℝ → Res (Mem ℂ ℝ)} : ∀ {ms us : List (Mem ℂ ℝ)} {k : Nat}, us.length = ms.length →
    mapRes (fun r (x : Mem ℂ ℝ × Mem ℂ ℝ) => f r x.2) k (us.zip ms) = mapRes f k ms
  | [], us, k, hl => by
    obtain rfl := List.length_eq_zero_iff.1 hl
    rfl
  | m :: t, [], k, hl => by cases hl
  | m :: t, u :: us, k, hl => by
    rw [List.zip_cons_cons]
    unfold mapRes
    rw [mapRes_second (Nat.succ.inj hl)]

theorem onto_step {K : Kernel ℂ ℝ} {T : Task} {next : Nat → Mem ℂ ℝ → Mem ℂ ℝ} {D : Fin 4 → Nat → List Nat} {us ms : List (Mem ℂ ℝ)}
    (h : perform T.object K { T.world with done := D } T.mode T.fwd T.nb T.inplace T.scaling (us.mapIdx next) = .ok ms) (hl : ms.length = us.length) :
    ((T.onto next).withOrder D).together K us = .ok ms := by
  unfold perform Object.call at h
  unfold OwnCall.together OwnCall.withOrder Task.onto
  simp only
  cases h1 : transform K { T.world with done := D } T.mode T.object.fft T.fwd T.nb T.inplace (us.mapIdx next) with
  | error e => rw [h1] at h; cases h
  | ok m1 =>
    rw [h1] at h
    simp only [bind, Except.bind] at h ⊢
    rw [mapRes_second (by rw [← hl, (mapRes_get h).1])]
    exact h

/-- C74: the transform and the inverse transform, one after the other, by ranks at their own speed; a rank may be in the second call while
others are still in the first one.  Every history can be continued until all the ranks are at the end, and then the arrays have the
original values. -/
theorem C74_round_trip {bin bout : List Box} {wi wo : Box} {opts : Opts} {T T' : Task} {us : Nat → Mem ℂ ℝ} {g : Nat → A3 Int → ℂ}
    {next : Nat → Mem ℂ ℝ → Mem ℂ ℝ} (hw : 0 < w) (S : StockC2C bin bout wi wo opts T.object) (hn : bin.length = n) (hnb : 0 < T.nb)
    (hf : WorldFine T.world) (hf' : WorldFine T'.world) (hm : T.mode = .same) (hsame : T'.object = T.object ∧ T'.nb = T.nb ∧ T'.mode = .same ∧ T'.fwd = !T.fwd)
    (ha : CallArrays (srcBoxes T.fwd bin bout) (dstBoxes T.fwd bin bout) false false (T.object.sizeWorkspace noWork) T.nb T.inplace ((List.range n).map us) (.inl g))
    (hs : SourceHolds (srcBoxes T.fwd bin bout) T.inplace) (hs' : SourceHolds (dstBoxes T.fwd bin bout) T'.inplace)
    (hnext : ∀ ms F, Outcome (dstBoxes T.fwd bin bout) T.nb ((List.range n).map us) ms F →
      HasArrays (dstBoxes T.fwd bin bout) (srcBoxes T.fwd bin bout) false false (T.object.sizeWorkspace noWork) T.nb T'.inplace (ms.mapIdx next) ∧
      Continues T'.inplace ms (ms.mapIdx next)) (hinv : Inverse T.scaling T'.scaling)
    {k : Nat} {st : Net (Option (Nat × Bool × Fin 4)) (Packet ℂ ℝ) (OwnRank (Mem ℂ ℝ) ℂ ℝ)}
    (hr : Net.Runs n (ownNext (stockKernel w junk inp) anyOrder [T.onto fun _ m => m, T'.onto next]) k (ownStart us) st) :
    (∀ r, r < n → ownNext (stockKernel w junk inp) anyOrder [T.onto fun _ m => m, T'.onto next] r (st.loc r) ≠ .fail) ∧
    ((∃ st', Net.Move n (ownNext (stockKernel w junk inp) anyOrder [T.onto fun _ m => m, T'.onto next]) st st') ∨
      ((∀ r, r < n → (st.loc r).calls = 2) ∧ (∀ key s d, st.chan key s d = []) ∧
        ∀ r, r < n → ∀ j, j < T.nb → HoldsSlot (boxAt (srcBoxes T.fwd bin bout) r) j (st.loc r).user.output (.inl g))) := by
  subst hn
  obtain ⟨e1, e2, e3, e4⟩ := hsame
  obtain ⟨-, -, hp, -, -, -, -, hso⟩ := makeFft3d_ok S.geo S.made
  obtain ⟨-, h2, h3⟩ := C74_own_speed (K := stockKernel w junk inp) (calls := [T.onto fun _ m => m, T'.onto next]) (n := bin.length) (us := us) (plan := fun _ => T.object.plan)
    (Q := fun ms => ∀ (r : Nat) m, ms[r]? = some m → ∀ j, j < T.nb → HoldsSlot (boxAt (srcBoxes T.fwd bin bout) r) j m.output (.inl g))
    (fun c C hC => by
      match c, hC with
      | 0, hC => obtain rfl := Option.some.inj hC; exact ⟨_, _, _, _, _, hp, hso⟩
      | 1, hC =>
        obtain rfl := Option.some.inj hC
        have hso' := hso
        rw [← congrArg Object.fft e1] at hso'
        exact ⟨_, _, _, _, _, hp, hso'⟩
      | c + 2, hC => cases hC)
    (fun D hD => by
      have hD0 := hD 0 _ rfl
      have hD1 := hD 1 _ rfl
      have hW0 : WorldOk { T.world with done := D 0 } T.object.plan T.fwd := ⟨hf.stride, hD0, hf.junk, hf.junkReal⟩
      have hW1 : WorldOk { T'.world with done := D 1 } T.object.plan !T.fwd := ⟨hf'.stride, by rw [← e4]; exact hD1, hf'.junk, hf'.junkReal⟩
      obtain ⟨ms, g1, g2⟩ := C38_complex (junk := junk) (inp := inp) (s := T.scaling) (s' := T'.scaling) S hw hW0 hW1 hnb ha hs hs'
      obtain ⟨ms0, c1, c2⟩ := C40_complex (junk := junk) (inp := inp) (s := T.scaling) S hw hW0 hnb ha hs
      obtain rfl := Except.ok.inj (c1.symm.trans g1)
      obtain ⟨n1, n2⟩ := hnext _ _ c2
      obtain ⟨ms', g3, -, g4⟩ := g2 _ n1 n2
      have g5 := g4 hinv
      have t1 := onto_step (K := stockKernel w junk inp) (T := T) (next := fun _ m => m) (D := D 0) (us := (List.range bin.length).map us) (ms := ms0)
        (by
          have : ((List.range bin.length).map us).mapIdx (fun _ m => m) = (List.range bin.length).map us := by
            apply List.ext_getElem?
            intro i
            rw [List.getElem?_mapIdx]
            cases ((List.range bin.length).map us)[i]? <;> rfl
          rw [this, hm]; exact c1) c2.ranks
      have t2 := onto_step (K := stockKernel w junk inp) (T := T') (next := next) (D := D 1) (us := ms0) (ms := ms')
        (by rw [e1, e2, e3, e4]; exact g3) (by rw [g5.ranks, List.length_mapIdx])
      refine ⟨ms', ?_, g5.values⟩
      show allTogether _ [(T.onto fun _ m => m).withOrder (D 0), (T'.onto next).withOrder (D 1)] _ = _
      simp only [allTogether, bind, Except.bind]
      rw [t1]
      simp only
      rw [t2]) hr
  refine ⟨h2, h3.imp id fun ⟨a, b, d⟩ => ⟨a, b, fun r hrn j hj => ?_⟩⟩
  exact d r (st.loc r).user (by rw [List.getElem?_map, List.getElem?_range hrn]; rfl) j hj

end

/-! ## Examples: four ranks, two plans with different options -/

section
variable {w : Nat} {junk : Tag → Int × Int → Scratch} {inp : Tag → Int × Int → Arr ℂ}

theorem range_getD {l : List (Mem ℂ ℝ)} {n : Nat} (h : l.length = n) (d : Mem ℂ ℝ) : ((List.range n).map fun r => l.getD r d) = l := by
  subst h
  apply List.ext_getElem
  · simp
  · intro i _ hi
    simp [List.getD, hi]

theorem fine_world : WorldFine ⟨1, fun _ _ => [], fun _ _ l => l, fun _ _ l => l⟩ := ⟨Nat.one_pos, fun _ _ _ => rfl, fun _ _ _ => rfl⟩

/-- C74: two plans with any options, a forward transform of complex data and one of real data: the hypotheses can be met and there is a
complete history, with both results. -/
example (opts opts' : Opts) (hw : 0 < w) (g : Nat → A3 Int → ℂ) (g' : Nat → A3 Int → ℝ) :
    ∃ (tasks : List Task) (us : Nat → Nat → Mem ℂ ℝ) (dst : Nat → List Box) (F : Nat → Field ℂ ℝ), tasks.length = 2 ∧
      (∀ c (T : Task), tasks[c]? = some T → 0 < T.nb ∧ WorldFine T.world ∧ StockTask 4 T ((List.range 4).map fun r => us r c) (dst c) (F c)) ∧
      ∃ k st, Net.Runs 4 (ownNext (stockKernel w junk inp) anyOrder (taskCalls tasks)) k (ownStart us) st ∧ (∀ r, r < 4 → (st.loc r).calls = 2) ∧
        ∀ c (T : Task), tasks[c]? = some T → Outcome (dst c) T.nb ((List.range 4).map fun r => us r c) ((List.range 4).map fun r => (st.loc r).user c) (F c) := by
  obtain ⟨wi, wo, ob, S⟩ := exObject opts
  obtain ⟨wi', wo', ob', S'⟩ := exObjectC opts'
  obtain ⟨m0s, h⟩ := arrays_exist exIn exOut false (ob.sizeWorkspace noWork) 2 (.inl g : Field ℂ ℝ) (src_order S.geo true)
  obtain ⟨m1s, h'⟩ := arrays_exist exIn exOutC false (ob'.sizeWorkspace noWork) 1 (.inr g' : Field ℂ ℝ) (src_order S'.geo true)
  let T : Task := ⟨0, ob, .same, true, 2, fun _ => false, .full, ⟨1, fun _ _ => [], fun _ _ l => l, fun _ _ l => l⟩⟩
  let T' : Task := ⟨1, ob', .r2c, true, 1, fun _ => false, .none, ⟨1, fun _ _ => [], fun _ _ l => l, fun _ _ l => l⟩⟩
  let us : Nat → Nat → Mem ℂ ℝ := fun r c => if c = 0 then m0s.getD r ⟨.inl [], .inl [], []⟩ else m1s.getD r ⟨.inl [], .inl [], []⟩
  have l0 : m0s.length = 4 := h.ranks
  have l1 : m1s.length = 4 := h'.ranks
  have u0 : ((List.range 4).map fun r => us r 0) = m0s := range_getD l0 _
  have u1 : ((List.range 4).map fun r => us r 1) = m1s := range_getD l1 _
  let dst : Nat → List Box := fun c => if c = 0 then exOut else exOutC
  let F : Nat → Field ℂ ℝ := fun c => if c = 0 then .inl fun j p => (Scaling.full.factor wi.count : ℂ) * dft3 true wi (g j) p else
    .inl fun j p => (Scaling.none.factor wi'.count : ℂ) * dft3 true wi' (fun q => (g' j q : ℂ)) p
  have hyp : ∀ c (X : Task), [T, T'][c]? = some X → 0 < X.nb ∧ WorldFine X.world ∧ StockTask 4 X ((List.range 4).map fun r => us r c) (dst c) (F c) := by
    intro c X hX
    match c, hX with
    | 0, hX =>
      obtain rfl := Option.some.inj hX
      refine ⟨Nat.two_pos, fine_world, ?_⟩
      rw [u0]
      exact StockTask.complex (T := T) S rfl rfl h (exSource exIn (by simp))
    | 1, hX =>
      obtain rfl := Option.some.inj hX
      refine ⟨Nat.one_pos, fine_world, ?_⟩
      rw [u1]
      exact StockTask.halfForward (T := T') S' rfl rfl rfl rfl h' (.inl rfl)
    | c + 2, hX => cases hX
  refine ⟨[T, T'], us, dst, F, rfl, hyp, ?_⟩
  obtain ⟨k, st, h1, h2⟩ := runs_end (fun j b hj => (C74_transforms (junk := junk) (inp := inp) hw hyp hj).1) _ 0 _ le_rfl (.refl (ownStart us))
  obtain ⟨-, -, h3⟩ := C74_transforms (junk := junk) (inp := inp) hw hyp h1
  rcases h3 with h3 | ⟨h3, -, h4⟩
  · exact absurd h3 h2
  · exact ⟨k, st, h1, h3, h4⟩

/-- C74: forward and backward on exchanged arrays: the hypotheses can be met. -/
example (opts : Opts) (hw : 0 < w) (g : Nat → A3 Int → ℂ) : ∃ (T T' : Task) (us : Nat → Mem ℂ ℝ) (next : Nat → Mem ℂ ℝ → Mem ℂ ℝ),
    ∀ k st, Net.Runs 4 (ownNext (stockKernel w junk inp) anyOrder [T.onto fun _ m => m, T'.onto next]) k (ownStart us) st →
      (∃ st', Net.Move 4 (ownNext (stockKernel w junk inp) anyOrder [T.onto fun _ m => m, T'.onto next]) st st') ∨
      ∀ r, r < 4 → ∀ j, j < 2 → HoldsSlot (boxAt exIn r) j (st.loc r).user.output (.inl g) := by
  obtain ⟨wi, wo, ob, S⟩ := exObject opts
  obtain ⟨m0s, h⟩ := arrays_exist exIn exOut false (ob.sizeWorkspace noWork) 2 (.inl g : Field ℂ ℝ) (src_order S.geo true)
  let T : Task := ⟨0, ob, .same, true, 2, fun _ => false, .full, ⟨1, fun _ _ => [], fun _ _ l => l, fun _ _ l => l⟩⟩
  let T' : Task := ⟨0, ob, .same, false, 2, fun _ => false, .none, ⟨1, fun _ _ => [], fun _ _ l => l, fun _ _ l => l⟩⟩
  have l0 : m0s.length = 4 := h.ranks
  have u0 : ((List.range 4).map fun r => m0s.getD r ⟨.inl [], .inl [], []⟩) = m0s := range_getD l0 _
  refine ⟨T, T', fun r => m0s.getD r ⟨.inl [], .inl [], []⟩, fun _ m => ⟨m.output, m.input, m.work⟩, fun k st hr => ?_⟩
  have := C74_round_trip (junk := junk) (inp := inp) (T := T) (T' := T') (n := 4) hw S rfl Nat.two_pos fine_world fine_world rfl ⟨rfl, rfl, rfl, rfl⟩ (by rw [u0]; exact h)
    (exSource exIn (by simp)) (exSource exOut (by simp)) (fun ms F ho => by
      rw [u0] at ho
      have e : (ms.mapIdx fun (_ : Nat) (m : Mem ℂ ℝ) => (⟨m.output, m.input, m.work⟩ : Mem ℂ ℝ)) = ms.map fun m => ⟨m.output, m.input, m.work⟩ := by
        apply List.ext_getElem?
        intro i
        rw [List.getElem?_mapIdx, List.getElem?_map]
      rw [e]
      exact swapped_arrays (src := exIn) (dst := exOut) rfl h.has ho) (.inl ⟨rfl, rfl⟩) hr
  exact this.2.imp id fun h => h.2.2

end
end Verif
