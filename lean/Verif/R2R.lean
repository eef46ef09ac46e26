import Verif.Transform

/-!
# Model of the sine and cosine transforms of the stock backend

`/repo/include/heffte_r2r_executor.h` is cited as `r2r.h`, `/repo/include/heffte_plan_logic.h` as `plan_logic.h`.

The executor copies every line into a longer signal inside of its workspace, calls the real-to-complex executor of the stock backend on
the box of the long signals, and copies entries of the result back.

Simplifications: the array of the complex numbers inside of the workspace is a second array that starts at `workspace + box_size() + 1`
(an access of the first array beyond this position is out of bounds here).
-/

namespace Verif

/-- What is written: a value, `none` if reading it was out of bounds, or another entry of the written array. -/
inductive Val (β : Type) where
  | val (v : Option β)
  | own (i : Int)

section
variable {α β : Type}

/-- The value that is written. -/
def Val.read (base : Int) (mem : List β) : Val β → Option β
  | .val o => o
  | .own i => rd mem (base + i)

/-- The statements `signal[a] = v` in sequence, with `signal = mem + base`. -/
def runStmts (base : Int) : List (Int × Val β) → List β → Res (List β)
  | [], mem => .ok mem
  | (a, v) :: t, mem =>
    match v.read base mem with
    | none => .error .ub
    | some x =>
      match wr mem (base + a) x with
      | none => .error .ub
      | some m => runStmts base t m

/-- `compute_extended_length` (r2r.h:84-86, 131-133, 177-179). -/
def Trig.extended (z : Trig) (n : Int) : Int :=
  match z with
  | .cos => 4 * n
  | .sin => 4 * n
  | .cos1 => 4 * (n - 1)

variable [Zero β] [Neg β]

/-- `pre_forward` (r2r.h:46-55, 95-106, 142-152); `x i` is `input[i]`. -/
def preForward (z : Trig) (n : Int) (x : Int → Option β) : List (Int × Val β) :=
  match z with
  | .cos =>
    ((loop n).flatMap fun i => [(2 * i, .val (some 0)), (2 * i + 1, .val (x i))]) ++ [(2 * n, .val (some 0))] ++
      (loop (2 * n)).map fun i => (4 * n - i, .own i)
  | .sin =>
    ((loop n).flatMap fun i => [(2 * i, .val (some 0)), (2 * i + 1, .val (x i))]) ++ [(2 * n, .val (some 0))] ++
      (loop n).flatMap fun i => [(4 * n - 2 * i, .val (some 0)), (4 * n - 2 * i - 1, .val ((x i).map fun y => -y))]
  | .cos1 =>
    ((loop (n - 1)).flatMap fun i => [(2 * i, .val (x i)), (2 * i + 1, .val (some 0))]) ++
      (loopFrom 1 n).flatMap fun i => [(4 * (n - 1) - 2 * i, .val (x i)), (4 * (n - 1) - 2 * i + 1, .val (some 0))]

/-- `post_forward` (r2r.h:58-62, 109-112, 155-157); `y i` is `fft_result[i]`. -/
def postForward (K : Kernel α β) (z : Trig) (n : Int) (y : Int → Option α) : List (Int × Option β) :=
  match z with
  | .cos => (loop n).map fun i => (i, (y i).map fun c => (K.parts c).1)
  | .sin => (loop n).map fun i => (i, (y (i + 1)).map fun c => -(K.parts c).2)
  | .cos1 => (loop n).map fun i => (i, (y i).map fun c => (K.parts c).1)

/-- `pre_backward` (r2r.h:65-76, 115-124, 160-169); `x i` is `input[i]`. -/
def preBackward (K : Kernel α β) (z : Trig) (n : Int) (x : Int → Option β) : List (Int × Option α) :=
  match z with
  | .cos =>
    ((loop n).map fun i => (i, (x i).map fun y => K.join y 0)) ++ [(n, some (K.join 0 0))] ++
      (loopFrom (n + 1) (2 * n + 1)).map fun i => (i, (x (2 * n - i)).map fun y => K.join (-y) 0)
  | .sin =>
    [(0, some (K.join 0 0))] ++ ((loop n).map fun i => (i + 1, (x i).map fun y => K.join 0 (-y))) ++ [(2 * n, some (K.join 0 0))] ++
      (loop (n - 1)).map fun i => (n + i + 1, (x (n - i - 2)).map fun y => K.join 0 (-y))
  | .cos1 =>
    ((loop n).map fun i => (i, (x i).map fun y => K.join y 0)) ++
      (loopFrom n (2 * n - 1)).map fun i => (i, (x (2 * n - 2 - i)).map fun y => K.join y 0)

/-- `post_backward` (r2r.h:79-82, 127-129, 172-175); `y i` is `fft_result[i]`. -/
def postBackward (z : Trig) (n : Int) (y : Int → Option β) : List (Int × Option β) :=
  match z with
  | .cos => (loop n).map fun i => (i, y (2 * i + 1))
  | .sin => (loop n).map fun i => (i, y (2 * i + 1))
  | .cos1 => (loop n).map fun i => (i, y (2 * i))

/-- The array `base + a` for all the writes. -/
def shiftBy {γ : Type} (base : Int) (l : List (Int × γ)) : List (Int × γ) := l.map fun w => (base + w.1, w.2)

/-- `make_extended_box` (r2r.h:32-36). -/
def extendedBox (z : Trig) (b : Box) : Box where
  low := ⟨0, 0, 0⟩
  high := (A3.mk (b.size 0 - 1) (b.size 1 - 1) (b.size 2 - 1)).set (b.order 0) (z.extended (b.osize 0) - 1)
  order := b.order

/-- `num_batch` (r2r.h:204). -/
def numLines (b : Box) : Int := b.osize 1 * b.osize 2

/-- `workspace_size` (r2r.h:259-262) with the stock backend, whose `workspace_size` is zero (stock.h:611).  The real-to-complex
executor of an empty box is a null pointer (common.h:670-708). -/
def workspaceR2R (z : Trig) (b : Box) (d : Fin 3) : Res Int :=
  let e := extendedBox z b
  if e.empty then .error .ub else .ok (e.count + 2 * (e.r2c d).count + 1)

/-- `real2real_executor::forward` (r2r.h:221-232) on the data from address `base` on. -/
def forwardR2R (K : Kernel α β) (tag : Tag) (z : Trig) (b : Box) (d : Fin 3) (base : Int) (ws data : List β) : Res (List β) :=
  let e := extendedBox z b
  let n := b.osize 0
  let ext := z.extended n
  if e.empty then .error .ub
  else do
    let temp ← (loop (numLines b)).foldlM (fun t i => runStmts (i * ext) (preForward z n fun k => rd data (base + i * n + k)) t)
      (ws.take (e.count + 1).toNat)
    let ctemp ← execR2C K.lanes (K.fromReal tag (e.size d).toNat) e d 0 0 temp (K.toComplex (ws.drop (e.count + 1).toNat))
    (loop (numLines b)).foldlM (fun m i => writeAll (shiftBy (base + i * n) (postForward K z n fun k => rd ctemp (i * (ext / 2 + 1) + k))) m) data

/-- `real2real_executor::backward` (r2r.h:235-245). -/
def backwardR2R (K : Kernel α β) (tag : Tag) (z : Trig) (b : Box) (d : Fin 3) (base : Int) (ws data : List β) : Res (List β) :=
  let e := extendedBox z b
  let n := b.osize 0
  let ext := z.extended n
  if e.empty then .error .ub
  else do
    let ctemp ← (loop (numLines b)).foldlM (fun t i => writeAll (shiftBy (i * (ext / 2 + 1)) (preBackward K z n fun k => rd data (base + i * n + k))) t)
      (K.toComplex (ws.drop (e.count + 1).toNat))
    let temp ← execC2R K.lanes (K.toReal tag (e.size d).toNat) e d 0 0 ctemp (ws.take (e.count + 1).toNat)
    (loop (numLines b)).foldlM (fun m i => writeAll (shiftBy (base + i * n) (postBackward z n fun k => rd temp (i * ext + k))) m) data

/-- `forward` or `backward`. -/
def runR2R (K : Kernel α β) (tag : Tag) (z : Trig) (fwd : Bool) (b : Box) (d : Fin 3) (base : Int) (ws data : List β) : Res (List β) :=
  if fwd then forwardR2R K tag z b d base ws data else backwardR2R K tag z b d base ws data

end
end Verif
