import Verif.Tails
import Verif.Calls
import Verif.SplitLemmas
import Verif.WorldLemmas

/-!
# The benchmark speed3d

`/repo/benchmarks/speed3d.h` as a program: the grids and boxes, the arrays, the warm-up, the runs and the reported error.  The command line is
given by its values; the timing, the printed grids and the GPU transfers are left out.
-/

namespace Verif

/-! ## The boxes -/

/-- The options `-ingrid`, `-outgrid` and `-io_pencils`. -/
structure SpeedGrids where
  ingrid : Option (A3 Int)
  outgrid : Option (A3 Int)
  pencils : Bool

/-- `world` (speed3d.h:58). -/
def speedWorld (size : A3 Int) : Box := ⟨⟨0, 0, 0⟩, ⟨size.x - 1, size.y - 1, size.z - 1⟩, defaultOrder⟩

def intGrid (g : A3 Nat) : A3 Int := ⟨g.x, g.y, g.z⟩

/-- `proc_i` and `proc_o` (speed3d.h:61-77). -/
def speedGrids (world : Box) (n : Nat) (o : SpeedGrids) : Res (A3 Int × A3 Int) := do
  let g := intGrid (procSetupMinSurface world n)
  let (gi, go) ← if o.pencils then do
      let p ← makeProcgrid n
      .ok ((⟨1, p.1, p.2⟩ : A3 Int), (⟨p.1, p.2, 1⟩ : A3 Int))
    else .ok (g, g)
  .ok (o.ingrid.getD gi, o.outgrid.getD go)

/-- The product of the numbers of a grid (speed3d.h:79, 81). -/
def gridProduct (g : A3 Int) : Int := g.x * g.y * g.z

/-- The loops of `split_world` do nothing for a negative number (geometry.h:418-424). -/
def loopGrid (g : A3 Int) : A3 Nat := ⟨g.x.toNat, g.y.toNat, g.z.toNat⟩

/-- `inboxes` and `outboxes` (speed3d.h:79-97), with `inboxes[me]` and `outboxes[me]` on every rank (speed3d.h:121, 127). -/
def speedBoxes (size : A3 Int) (n : Nat) (o : SpeedGrids) (r2c : Option (Fin 3)) : Res (List Box × List Box) := do
  let world := speedWorld size
  let (gi, go) ← speedGrids world n o
  if gridProduct gi ≠ n then .error .runtime
  else if gridProduct go ≠ n then .error .runtime
  else
    let bin := gridBoxes world (loopGrid gi)
    let bout := gridBoxes (match r2c with | none => world | some d => world.r2c d) (loopGrid go)
    if bin.length < n ∨ bout.length < n then .error .ub else .ok (bin, bout)

/-! ## The runs -/

section
variable {α β : Type}

/-- A call of the object on all the ranks: number of the call, forward or backward, batch, scaling. -/
abbrev SpeedCall (α β : Type) := Nat → Bool → Nat → Scaling → List (Mem α β) → Res (List (Mem α β))

/-- Other vectors for the workspace (fft3d.h:356-358 for the calls without one; speed3d.h:166). -/
def newWork (zero : α) (n : Nat → Nat) (ms : List (Mem α β)) : List (Mem α β) :=
  ms.mapIdx fun r m => ⟨m.input, m.output, List.replicate (n r) zero⟩

/-- The loop over the runs (speed3d.h:177-191) from call `k` on. -/
def speedLoop (call : SpeedCall α β) (nb : Nat) : Nat → Nat → List (Mem α β) → Res (List (Mem α β))
  | _, 0, ms => .ok ms
  | k, n + 1, ms => do
    let ms ← call k true nb .full ms
    let ms ← call (k + 1) false nb .none ms
    speedLoop call nb (k + 2) n ms

/-- The arrays in place: `output` begins with the data (speed3d.h:128-129, 141).  The calls do not look at the input. -/
def speedArrays (zero : α) (size : Nat → Nat) (data : List (List α)) : List (Mem α β) :=
  data.mapIdx fun r x => ⟨.inl [], .inl (x ++ List.replicate (size r - x.length) zero), []⟩

/-- The warm-up (speed3d.h:170-171): one entry of the batch. -/
def speedWarmup (zero : α) (call : SpeedCall α β) (need : Nat → Nat) (ms : List (Mem α β)) : Res (List (Mem α β)) := do
  let ms ← call 0 true 1 .full (newWork zero need ms)
  call 1 false 1 .none (newWork zero need ms)

/-- The benchmark with transforms in place (c2c and r2r; speed3d.h:121-191): `need` is `size_workspace()`, `size` is the larger one of
`size_inbox()` and `size_outbox()`.  The result are the arrays at the end. -/
def speedInPlace (zero : α) (call : SpeedCall α β) (need size : Nat → Nat) (nb runs : Nat) (data : List (List α)) : Res (List (Mem α β)) := do
  let ms ← speedWarmup zero call need (speedArrays zero (fun r => nb * size r) data)
  speedLoop call nb 2 runs (newWork zero (fun r => nb * need r) ms)

/-- The output of a call becomes the input of the next one and the other way round. -/
def turned (ms : List (Mem α β)) : List (Mem α β) := ms.map fun m => ⟨m.output, m.input, m.work⟩

/-- The loop over the runs with two arrays. -/
def speedLoopR2C (call : SpeedCall α β) (nb : Nat) : Nat → Nat → List (Mem α β) → Res (List (Mem α β))
  | _, 0, ms => .ok ms
  | k, n + 1, ms => do
    let ms ← call k true nb .full ms
    let ms ← call (k + 1) false nb .none (turned ms)
    speedLoopR2C call nb (k + 2) n (turned ms)

/-- The arrays `input` and `output` of the r2c benchmark (speed3d.h:121, 160; the entries of a new vector are zero). -/
def speedArraysR2C (zero : α) (size : Nat → Nat) (data : List (List β)) : List (Mem α β) :=
  data.mapIdx fun r x => ⟨.inr x, .inl (List.replicate (size r) zero), []⟩

/-- The r2c benchmark (speed3d.h:121-191): `size` is `size_outbox()`. -/
def speedR2C (zero : α) (call : SpeedCall α β) (need size : Nat → Nat) (nb runs : Nat) (data : List (List β)) : Res (List (Mem α β)) := do
  let ms ← call 0 true 1 .full (newWork zero need (speedArraysR2C zero (fun r => nb * size r) data))
  let ms ← call 1 false 1 .none (newWork zero need (turned ms))
  speedLoopR2C call nb 2 runs (newWork zero (fun r => nb * need r) (turned ms))

end

/-- The reported error of the r2c benchmark. -/
noncomputable def speedErrorR2C {α β : Type} [NormedAddCommGroup β] (data : List (List β)) (ms : List (Mem α β)) : ℝ :=
  ((data.zip ms).flatMap fun x => match x.2.input with
    | .inl _ => []
    | .inr l => (x.1.zip l).map fun y => ‖y.1 - y.2‖).foldl max 0

/-- The reported error (speed3d.h:219-223): the largest difference to the data, on all the ranks. -/
noncomputable def speedError {α β : Type} [NormedAddCommGroup α] (data : List (List α)) (ms : List (Mem α β)) : ℝ :=
  ((data.zip ms).flatMap fun x => match x.2.output with
    | .inl l => (x.1.zip l).map fun y => ‖y.1 - y.2‖
    | .inr _ => []).foldl max 0

/-! ## The geometry -/

theorem cut_between {low n : Int} {p i : Nat} (hn : 0 ≤ n) (hp : 0 < p) (hi : i ≤ p) : low ≤ cut low n p i ∧ cut low n p i ≤ low + n := by
  have mono : ∀ k j, cut low n p j ≤ cut low n p (j + k) := by
    intro k
    induction k with
    | zero => intro j; exact le_rfl
    | succ k ih => intro j; exact (ih j).trans (cut_mono hn)
  constructor
  · have := mono i 0
    rwa [cut_zero hn, Nat.zero_add] at this
  · have := mono (p - i) i
    rwa [Nat.add_sub_cancel' hi, cut_last hp] at this

theorem gridBoxes_inside {w : Box} {g : A3 Nat} (hw : ∀ d, 0 ≤ w.size.get d) (hg : ∀ d, 0 < g.get d) :
    ∀ b ∈ gridBoxes w g, (∀ d, w.low.get d ≤ b.low.get d ∧ b.high.get d ≤ w.high.get d) ∧ b.order = w.order := by
  intro b hb
  simp only [gridBoxes, List.mem_flatMap, List.mem_map, List.mem_range] at hb
  obtain ⟨k, hk, j, hj, i, hi, rfl⟩ := hb
  have hs : ∀ d, w.size.get d = w.high.get d - w.low.get d + 1 := fun d => Box.size_get w d
  have key : ∀ (d : Fin 3) (c : Nat), c < g.get d → w.low.get d ≤ cut (w.low.get d) (w.size.get d) (g.get d) c ∧
      cut (w.low.get d) (w.size.get d) (g.get d) (c + 1) - 1 ≤ w.high.get d := by
    intro d c hc
    have h1 := cut_between (low := w.low.get d) (hw d) (hg d) hc.le
    have h2 := cut_between (low := w.low.get d) (hw d) (hg d) (Nat.succ_le_of_lt hc)
    have := hs d
    rw [Nat.succ_eq_add_one] at h2
    omega
  refine ⟨fun d => ?_, rfl⟩
  fin_cases d
  · exact key 0 i hi
  · exact key 1 j hj
  · exact key 2 k hk

/-- The enclosing box of boxes that tile a box. -/
theorem findWorld_tiled {l : List Box} {w : Box} (ht : Tiles l w) (hin : ∀ b ∈ l, ∀ d, w.low.get d ≤ b.low.get d ∧ b.high.get d ≤ w.high.get d)
    (hne : ∃ p : A3 Int, p ∈ w) : findWorld l = .ok ⟨w.low, w.high, defaultOrder⟩ := by
  have hp : w.low ∈ w ∧ w.high ∈ w := by
    obtain ⟨p, hp⟩ := hne
    rw [Box.mem_def] at hp
    rw [Box.mem_def, Box.mem_def]
    exact ⟨fun d => ⟨le_rfl, (hp d).1.trans (hp d).2⟩, fun d => ⟨(hp d).1.trans (hp d).2, le_rfl⟩⟩
  obtain ⟨b, hb, hlb⟩ := ht.exists_box hp.1
  obtain ⟨c, hc, hhc⟩ := ht.exists_box hp.2
  cases hf : findWorld l with
  | error e =>
    rw [findWorld_error] at hf
    rw [hf.1] at hb
    cases hb
  | ok v =>
    have h1 := findWorld_encloses hf
    have h2 := findWorld_tightest hf hin
    have h3 := findWorld_order hf
    rw [Box.mem_def] at hlb hhc
    have e1 : v.low = w.low := A3.ext' fun d => le_antisymm ((h1 b hb d).1.trans (hlb d).1) (h2 d).1
    have e2 : v.high = w.high := A3.ext' fun d => le_antisymm (h2 d).2 ((hhc d).2.trans (h1 c hc d).2)
    obtain ⟨v1, v2, v3⟩ := v
    dsimp only at e1 e2 h3
    rw [e1, e2, h3]

end Verif
