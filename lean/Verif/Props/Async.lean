import Verif.GpuCall
import Verif.Props.Reshape

/-!
# Properties of reshapes on devices (C72)

`HoldsAt` is the specification: a buffer of a rank holds the parts of the global arrays in a box.  `DeviceRuns` (GpuReshape.lean)
says which contents of the memory a call of a reshape on all ranks can leave, for any timing of streams, hosts and messages.
-/

namespace Verif
variable {α : Type} {bin bout : List Box} {w : Box}

/-- The buffer `b` of rank `r` holds the entries of the global arrays `G 0, ..., G (nb - 1)` with the indexes in `box`, one
array after the other, each in the order of the box. -/
def HoldsAt (m : Store α) (r : Nat) (b : DevBuf) (box : Box) (nb : Nat) (G : Nat → A3 Int → α) : Prop :=
  ∀ j, j < nb → ∀ p : A3 Int, p ∈ box → m (.mem r b (j * box.points.card + box.offset p)) = G j p

/-- The work that is pending in the streams before the call: any steps on the memory of the own rank. -/
def OwnWork (pre : Nat → List (Atom α)) : Prop := ∀ r, ∀ a ∈ pre r, a.onRank r

/-- **C72**: whatever the timing of the streams, of the hosts and of the messages, after a reshape on devices every rank holds
its part in the new distribution; nothing else in the array is changed. -/
theorem C72_device_reshape (h : Redistribution bin bout w) (alg : Alg) {shs : List (Option Shaper)}
    (hshs : shapersOf alg bin bout = .ok shs) (hneed : ∃ s ∈ shs, s ≠ none) (k : DeviceCall) (hstr : 0 < k.stride)
    (hdone : ArrivalOrder bin bout k.done) (hsound : k.transport ≠ .staged false) {pre : Nat → List (Atom α)} (hpre : OwnWork pre)
    {m m' : Store α} (hrun : DeviceRuns alg k shs pre m m') {G : Nat → A3 Int → α}
    (hsrc : ∀ r, r < bin.length → HoldsAt (runAtoms (pre r) m) r .src (boxAt bin r) k.nb G) {r : Nat} (hr : r < bin.length) :
    HoldsAt m' r (if k.inplace r then .src else .dst) (boxAt bout r) k.nb G ∧
    (∀ a, ¬ (0 ≤ a ∧ a < k.nb * (boxAt bout r).points.card) → m' (.mem r (if k.inplace r then .src else .dst) a) =
      runAtoms (pre r) m (.mem r (if k.inplace r then .src else .dst) a)) ∧
    (k.inplace r = false → ∀ a, m' (.mem r .src a) = runAtoms (pre r) m (.mem r .src a)) := by
  have hs : k.transport.sound = true := by
    cases ht : k.transport with
    | aware => rfl
    | staged v => cases v with
      | true => rfl
      | false => exact absurd ht hsound
  have hmv := device_moved h alg hshs hneed k hstr hdone hs hpre hrun
  refine ⟨?_, ?_, ?_⟩
  · intro j hj p hp
    obtain ⟨s, hs', hps⟩ := h.cover hr hp
    have := hmv.values s r hs' hr j p hj hps hp
    rw [pending hpre hs'] at this
    rw [Box.count_eq_card, Box.count_eq_card] at this
    rw [this]
    exact hsrc s hs' j hj p hps
  · intro a ha
    rw [hmv.beyond r a (by rw [Box.count_eq_card]; exact_mod_cast ha), pending hpre hr]
  · intro hi a
    rw [hmv.source r a hi, pending hpre hr]

/-- The call can be performed, and all the executions leave the same contents in the whole memory. -/
theorem C72_deterministic (h : Redistribution bin bout w) (alg : Alg) {shs : List (Option Shaper)}
    (hshs : shapersOf alg bin bout = .ok shs) (hneed : ∃ s ∈ shs, s ≠ none) (k : DeviceCall) (hstr : 0 < k.stride)
    (hdone : ArrivalOrder bin bout k.done) (hsound : k.transport ≠ .staged false) {pre : Nat → List (Atom α)} (hpre : OwnWork pre)
    (m : Store α) : ∃ m', DeviceRuns alg k shs pre m m' ∧ ∀ m'', DeviceRuns alg k shs pre m m'' → m'' = m' := by
  have hs : k.transport.sound = true := by
    cases ht : k.transport with
    | aware => rfl
    | staged v => cases v with
      | true => rfl
      | false => exact absurd ht hsound
  exact device_unique h alg hshs hneed k hstr hdone hs hpre m

/-- The sizes of the arrays and buffers: the arrays hold the parts of the rank, the workspace has the promised size, the
buffers of the host have the sizes given to `resize`. -/
def deviceSize (alg : Alg) (k : DeviceCall) (bin bout : List Box) (shs : List (Option Shaper)) (r : Nat) : DevBuf → Int
  | .src => if k.inplace r then max (k.nb * (boxAt bin r).points.card : Int) (k.nb * (boxAt bout r).points.card)
      else k.nb * (boxAt bin r).points.card
  | .dst => k.nb * (boxAt bout r).points.card
  | .ws => k.nb * wsOf (rankShaper shs r)
  | .hs => (hostSizes alg k.nb (rankShaper shs r)).1
  | .hr => (hostSizes alg k.nb (rankShaper shs r)).2

/-- Every access of a reshape on devices, of kernels, copies and MPI, is inside the buffer. -/
theorem C72_in_bounds (h : Redistribution bin bout w) (alg : Alg) {shs : List (Option Shaper)}
    (hshs : shapersOf alg bin bout = .ok shs) (hneed : ∃ s ∈ shs, s ≠ none) (k : DeviceCall) (hstr : 0 < k.stride)
    (hdone : ArrivalOrder bin bout k.done) {x : Loc × Loc} (hx : x ∈ deviceMoves alg k shs) {r : Nat} {b : DevBuf} {a : Int}
    (ha : x.1 = .mem r b a ∨ x.2 = .mem r b a) : r < bin.length ∧ 0 ≤ a ∧ a < deviceSize alg k bin bout shs r b := by
  have hin := device_inside h alg hshs hneed k hstr hdone x hx
  have : (Loc.mem r b a).inside bin.length (callSizes alg k bin bout shs) := by
    rcases ha with ha | ha
    · rw [← ha]; exact hin.1
    · rw [← ha]; exact hin.2
  refine ⟨this.1, this.2.1, lt_of_lt_of_le this.2.2 ?_⟩
  cases b <;> simp only [callSizes, bufSizes, deviceSize, Box.count_eq_card] <;> exact le_rfl

/-! ## The copy to the host has to wait -/

/-- Two ranks exchange one entry. -/
def exSwapA : List Box := [⟨⟨0, 0, 0⟩, ⟨0, 0, 0⟩, ⟨0, 1, 2⟩⟩, ⟨⟨1, 0, 0⟩, ⟨1, 0, 0⟩, ⟨0, 1, 2⟩⟩]
def exSwapB : List Box := [⟨⟨1, 0, 0⟩, ⟨1, 0, 0⟩, ⟨0, 1, 2⟩⟩, ⟨⟨0, 0, 0⟩, ⟨0, 0, 0⟩, ⟨0, 1, 2⟩⟩]
def exSwapW : Box := ⟨⟨0, 0, 0⟩, ⟨1, 0, 0⟩, ⟨0, 1, 2⟩⟩

theorem exSwap_redistribution : Redistribution exSwapA exSwapB exSwapW :=
  ⟨by decide, rfl, ((worldComplete_iff_tiles (w := exSwapW) (by decide)).1 (by decide)).2,
    ((worldComplete_iff_tiles (boxes := exSwapB) (w := ⟨⟨0, 0, 0⟩, ⟨1, 0, 0⟩, ⟨0, 1, 2⟩⟩) (by decide)).1 (by decide)).2,
    ⟨⟨0, 1, 2⟩, by decide, fun b hb _ => (by decide : ∀ b ∈ exSwapA, b.order = ⟨0, 1, 2⟩) b hb, fun b hb => by
      simp only [exSwapA, List.head?_cons, Option.some.injEq] at hb; rw [← hb], by decide⟩,
    ⟨⟨0, 1, 2⟩, by decide, fun b hb _ => (by decide : ∀ b ∈ exSwapB, b.order = ⟨0, 1, 2⟩) b hb, fun b hb => by
      simp only [exSwapB, List.head?_cons, Option.some.injEq] at hb; rw [← hb], by decide⟩⟩

def exCall (t : Transport) (inplace : Bool) : DeviceCall := ⟨1, 2, fun _ => [0, 1], t, fun _ => inplace⟩

/-- The reshape objects. -/
def exObjs : List (Option Shaper) := match shapersOf .alltoallv exSwapA exSwapB with
  | .ok s => s
  | .error _ => []

theorem exObjs_ok : shapersOf .alltoallv exSwapA exSwapB = .ok exObjs := by
  obtain ⟨s, hs⟩ : ∃ s, shapersOf .alltoallv exSwapA exSwapB = .ok s := by
    rcases shapersOf_cases exSwap_redistribution .alltoallv with ⟨-, h⟩ | ⟨-, g, -, h⟩ <;> exact ⟨_, h⟩
  unfold exObjs
  rw [hs]

/-- A phase of the operations in which MPI sends before the copy to the host. -/
def early : CollOp → Nat
  | .pre _ => 0 | .pk _ => 1 | .xf _ _ => 2 | .ul _ => 3 | .ld _ => 4 | .un _ => 5

/-- All operations in that order. -/
def earlyOps (n : Nat) : List CollOp :=
  (List.range n).map .pre ++ (List.range n).map .pk ++ ((List.range n).flatMap fun s => (List.range n).map (.xf s)) ++
    (List.range n).map .ul ++ (List.range n).map .ld ++ (List.range n).map .un

theorem sublist_around {E : Type} {x s y : E} {A B : List E} (hA : s ∉ A) (hB : s ∉ B) (h : [x, s, y].Sublist (A ++ s :: B)) :
    x ∈ A ∧ y ∈ B := by
  induction A with
  | nil =>
    rw [List.nil_append] at h
    cases h with
    | cons _ h => exact absurd (h.subset (by simp)) hB
    | cons_cons _ h => exact absurd (h.subset (by simp)) hB
  | cons a A ih =>
    have hA' : s ∉ A := fun hm => hA (by simp [hm])
    cases h with
    | cons _ h => exact ⟨List.mem_cons_of_mem _ (ih hA' h).1, (ih hA' h).2⟩
    | cons_cons _ h =>
      refine ⟨by simp, ?_⟩
      clear ih hA
      induction A with
      | nil =>
        replace h : [s, y].Sublist (s :: B) := h
        cases h with
        | cons _ h => exact absurd (h.subset (by simp)) hB
        | cons_cons _ h => exact h.subset (by simp)
      | cons b A ih =>
        have hA'' : s ∉ A := fun hm => hA' (by simp [hm])
        replace h : [s, y].Sublist (b :: (A ++ s :: B)) := h
        cases h with
        | cons _ h => exact ih hA'' h
        | cons_cons _ h => exact absurd (by simp) hA'

theorem early_order {c : Coll} (ht : c.transport = .staged false) :
    ∀ o o', Guarantee (collProg c) (fun _ _ => False) o o' → early o < early o' := by
  have hx : ∀ r, ∀ x ∈ c.transfers r, early x = 2 := by
    intro r x hx
    unfold Coll.transfers at hx
    rcases List.mem_append.1 hx with hx | hx
    · obtain ⟨m, -, rfl⟩ := List.mem_map.1 hx; rfl
    · obtain ⟨m, -, rfl⟩ := List.mem_map.1 hx; rfl
  have hp : ∀ r, collProg c r = [.launch (.pre r)] ∨ collProg c r = [.launch (.pre r), .launch (.pk r)] ++ .sync ::
      [.launch (.ul r), .call (c.transfers r), .launch (.ld r), .launch (.un r)] := by
    intro r
    unfold collProg
    cases c.active r with
    | false => exact .inl rfl
    | true => rw [ht]; exact .inr rfl
  have h0 : ∀ r, early (.pre r) = 0 := fun _ => rfl
  have h1 : ∀ r, early (.pk r) = 1 := fun _ => rfl
  have h3 : ∀ r, early (.ul r) = 3 := fun _ => rfl
  have h4 : ∀ r, early (.ld r) = 4 := fun _ => rfl
  have h5 : ∀ r, early (.un r) = 5 := fun _ => rfl
  intro e f h
  cases h with
  | @stream r _ _ h =>
    have : (collProg c r).Pairwise fun i j => ∀ e f, i = .launch e → j = .launch f → early e < early f := by
      rcases hp r with h | h <;> rw [h]
      · simp
      · simp [h0, h1, h3, h4, h5]
    exact List.pairwise_iff_forall_sublist.1 this h e f rfl rfl
  | @sync r _ _ i h hf =>
    rcases hp r with hr | hr <;> rw [hr] at h
    · have := h.length_le
      simp at this
    · obtain ⟨ha, hb⟩ := sublist_around (by simp) (by simp) h
      have he : early e ≤ 1 := by
        simp only [List.mem_cons, HostInstr.launch.injEq, List.not_mem_nil, or_false] at ha
        rcases ha with rfl | rfl
        · rw [h0]; omega
        · rw [h1]
      have hf' : 2 ≤ early f := by
        simp only [List.mem_cons, List.not_mem_nil, or_false] at hb
        rcases hb with rfl | rfl | rfl | rfl
        · simp only [HostInstr.starts, List.mem_singleton] at hf; rw [hf, h3]; omega
        · rw [hx r f hf]
        · simp only [HostInstr.starts, List.mem_singleton] at hf; rw [hf, h4]; omega
        · simp only [HostInstr.starts, List.mem_singleton] at hf; rw [hf, h5]; omega
      omega
  | @ended r _ _ i j h he hf =>
    have : (collProg c r).Pairwise fun i j => ∀ e ∈ i.ends, ∀ f ∈ j.starts, early e < early f := by
      rcases hp r with h | h <;> rw [h]
      · simp
      · simp [HostInstr.ends, HostInstr.starts, h4, h5]
        constructor
        · intro e he; rw [hx r e he]; omega
        · intro e he; rw [hx r e he]; omega
    exact List.pairwise_iff_forall_sublist.1 this h e he f hf
  | message h => exact h.elim

theorem early_execution {c : Coll} (ht : c.transport = .staged false) (pre : Nat → List (Atom α)) :
    Execution (Guarantee (collProg c) fun _ _ => False) CollOp.inOrder (collAct c pre) (collOps 2) (stepIds (collAct c pre) (earlyOps 2)) := by
  have h := schedule_refl (before := Guarantee (collProg c) fun _ _ => False) CollOp.inOrder (collAct c pre) (es := earlyOps 2) (by decide) ?_ ?_
  · refine ⟨?_, h.2⟩
    unfold stepIds
    exact List.Perm.flatMap_right _ (by decide)
  · have : (earlyOps 2).Pairwise fun a b => early a ≤ early b := by decide
    apply this.imp
    intro a b hab hg
    have := transGen_lt (early_order ht) hg
    omega
  · intro a _ hg
    have := transGen_lt (early_order ht) hg
    omega

/-- **C72**, the need for the wait: if the copy from the device to the host can return before its end, there are calls with
executions after which a rank does not hold its part. -/
theorem C72_false_without_wait : ∃ (bin bout : List Box) (w : Box) (shs : List (Option Shaper)) (k : DeviceCall) (m m' : Store Nat)
    (G : Nat → A3 Int → Nat), Redistribution bin bout w ∧ shapersOf .alltoallv bin bout = .ok shs ∧ (∃ s ∈ shs, s ≠ none) ∧
    0 < k.stride ∧ k.transport = .staged false ∧ DeviceRuns .alltoallv k shs (fun _ => []) m m' ∧
    (∀ r, r < bin.length → HoldsAt m r .src (boxAt bin r) k.nb G) ∧ ∃ r, r < bin.length ∧
      ¬ HoldsAt m' r (if k.inplace r then .src else .dst) (boxAt bout r) k.nb G := by
  refine ⟨exSwapA, exSwapB, exSwapW, exObjs, exCall (.staged false) false, fun l => match l with | .mem _ .src _ => 1 | _ => 0,
    runSteps (collAct (collOf (exCall (.staged false) false) exObjs) fun _ => [])
      (stepIds (collAct (α := Nat) (collOf (exCall (.staged false) false) exObjs) fun _ => []) (earlyOps 2))
      (fun l => match l with | .mem _ .src _ => 1 | _ => 0), fun _ _ => 1,
    exSwap_redistribution, exObjs_ok, by decide +kernel, by decide, rfl, ?_, ?_, 0, by decide, ?_⟩
  · unfold DeviceRuns
    rw [if_neg (by decide +kernel)]
    have hl : exObjs.length = 2 := by decide +kernel
    dsimp only
    rw [hl]
    exact ⟨_, early_execution rfl _, rfl⟩
  · intro r _ j _ p _
    rfl
  · intro hh
    have := hh 0 (by decide) ⟨1, 0, 0⟩ (by decide)
    rw [runSteps_stepIds] at this
    revert this
    decide +kernel

/-! ## Examples -/

/-- The reshapes of the example with three ranks. -/
def exObjects (alg : Alg) : List (Option Shaper) := match shapersOf alg exA exB with
  | .ok s => s
  | .error _ => []

/-- The calls of the example: two arrays, in place, the messages arrive in reverse order. -/
def exDevice (t : Transport) : DeviceCall := ⟨16, 2, fun r => (List.range (Senders exA exB r).card).reverse, t, fun r => r == 1⟩

/-- With each of the algorithms there is a reshape; for contents given by any `G` all executions give that result, one rank in place
and two out of place, the sources of which hold other values until the pending work has written them. -/
example (alg : Alg) (t : Transport) (ht : t ≠ .staged false) (G : Nat → A3 Int → Nat) (m : Store Nat)
    (pre : Nat → List (Atom Nat)) (hpre : OwnWork pre)
    (hm : ∀ r, r < 3 → HoldsAt (runAtoms (pre r) m) r .src (boxAt exA r) 2 G) :
    ∃ m', DeviceRuns alg (exDevice t) (exObjects alg) pre m m' ∧ HoldsAt m' 0 .dst (boxAt exB 0) 2 G ∧
      HoldsAt m' 1 .src (boxAt exB 1) 2 G := by
  have ho : shapersOf alg exA exB = .ok (exObjects alg) := by
    obtain ⟨s, hs, -⟩ := shapersOf_ok ex_redistribution alg
    unfold exObjects
    rw [hs]
  have hn : ∃ s ∈ exObjects alg, s ≠ none := by cases alg <;> decide +kernel
  have hk : 0 < (exDevice t).stride := (by decide : 0 < 16)
  obtain ⟨m', hr, -⟩ := C72_deterministic ex_redistribution alg ho hn (exDevice t) hk ex_arrival ht hpre m
  exact ⟨m', hr, (C72_device_reshape ex_redistribution alg ho hn (exDevice t) hk ex_arrival ht hpre hr hm (by decide : 0 < 3)).1,
    (C72_device_reshape ex_redistribution alg ho hn (exDevice t) hk ex_arrival ht hpre hr hm (by decide : 1 < 3)).1⟩

/-- There are contents and pending work with these properties: the work writes 7 to every cell of the source. -/
example : ∃ (m : Store Nat) (pre : Nat → List (Atom Nat)), OwnWork pre ∧ m (.mem 0 .src 0) = 0 ∧
    ∀ r, r < 3 → HoldsAt (runAtoms (pre r) m) r .src (boxAt exA r) 2 (fun _ _ => 7) := by
  refine ⟨fun _ => 0, fun r => [⟨fun _ => False, fun l => ∃ a, l = .mem r .src a, fun m l => (match l with
      | .mem q .src a => if q = r then 7 else m (.mem q .src a)
      | l => m l), ?_, ?_⟩], ?_, rfl, ?_⟩
  · intro m l hl
    split
    · rename_i q a
      rw [if_neg]
      rintro rfl
      exact hl ⟨a, rfl⟩
    · rfl
  · rintro m m' l - ⟨a, rfl⟩
    simp
  · intro r a ha
    rw [List.mem_singleton] at ha
    subst ha
    rintro l (h | ⟨a, rfl⟩)
    · exact h.elim
    · exact ⟨_, _, rfl⟩
  · intro r _ j _ p _
    simp [runAtoms]

/-- All the moves of the reshapes of the example. -/
example : ∀ alg ∈ [Alg.alltoall, .alltoallv, .p2p, .p2pPlined], (deviceMoves alg ⟨16, 2, fun _ => [1, 0], .staged true, fun r => r == 1⟩
    (exObjects alg)).length ≥ 168 := by decide +kernel

end Verif
