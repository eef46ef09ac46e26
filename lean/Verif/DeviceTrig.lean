import Verif.GpuTrig
import Verif.Props.R2R

/-!
# The calls of the sine and cosine transforms with other libraries and on devices
-/

namespace Verif
open Finset Stock

/-- The executor of a box on a device: `real2real_executor` (`/repo/include/heffte_r2r_executor.h:188-275`) with the processors `all`; `aligned` and
`addr` as in `TrigDims`. -/
def TrigDims.ofBox (z : Trig) (b : Box) (aligned : Bool) (addr : Int) : TrigDims := ⟨z, b.osize 0, numLines b, aligned, addr⟩

/-- What the executors of a device run on: the statements of the processors, the orders of the statements, the library for a box, the
alignment that the library asks for, the addresses of the workspaces modulo two and what they hold. -/
structure Device where
  all : Stage → Trig → Int → (Int → Option ℝ) → List (Int × Option ℝ)
  sched : Tag → Schedule ℝ
  lib : Tag → Box → TrigLib ℝ
  aligned : Bool
  addr : Tag → Int
  ws : Tag → List ℝ

/-- The arithmetic of the sine and cosine transforms on a device. -/
noncomputable def deviceKernel (D : Device) : Kernel ℝ Unit where
  lanes := 1
  line := fun _ _ _ _ _ => .error .ub
  fromReal := fun _ _ _ _ => .error .ub
  toReal := fun _ _ _ _ => .error .ub
  cast := fun _ => 0
  re := fun _ => ()
  parts := fun _ => ((), ())
  join := fun _ _ => 0
  trig := fun tag fwd z b _ base mem => gpuR2R D.all (D.sched tag) (D.lib tag b) fwd (.ofBox z b D.aligned (D.addr tag)) base (D.ws tag) mem

section
variable {D : Device} {z : Trig} {b w : Box}

/-- The executor of a box whose fastest direction is `d` transforms all the lines. -/
theorem does_device (hall : Processors D.all z) {rk : Nat} (hsched : ∀ tag s c l, OrderOf (D.sched tag s c l) l) (ho : IsOrder b.order) (hb : b.empty = false)
    {d : Fin 3} (hd : b.order 0 = d) (hs : Spans b w d) (hn : z.least ≤ (b.size d).toNat) {work : Int} (hw : 0 ≤ work)
    (hlib : ∀ tag, tag.rank = rk → LibGood (D.lib tag b) (z.gain (b.size d).toNat) (numLines b).toNat work D.aligned (D.addr tag))
    (hws : ∀ tag, tag.rank = rk → TrigDims.workspace (.ofBox z b D.aligned (D.addr tag)) work ≤ (D.ws tag).length) :
    Does (deviceKernel D) rk w (trig z) (.trig z b d) b [d] := by
  subst hd
  refine ⟨rfl, rfl, fun _ _ _ _ _ => rfl, fun _ _ _ _ _ => rfl, fun tag fwd base l G hr h0 hlen hG => ?_⟩
  have p0 := osize_pos hb 0
  have hl0 : 0 < numLines b := mul_pos (osize_pos hb 1) (osize_pos hb 2)
  have hcount := count_lines ho hb
  have hN : (((b.osize 0).toNat : Nat) : Int) = b.osize 0 := by omega
  have hL : (((numLines b).toNat : Nat) : Int) = numLines b := by omega
  have hLN : (((numLines b).toNat * (b.osize 0).toNat : Nat) : Int) = b.count := by
    push_cast
    rw [hN, hL, hcount]
  have cell : ∀ c k : Nat, c < (numLines b).toNat → k < (b.osize 0).toNat →
      ((c * (b.osize 0).toNat + k : Nat) : Int) < b.count := by
    intro c k hc hk
    rw [← hLN]
    have : (c + 1) * (b.osize 0).toNat ≤ (numLines b).toNat * (b.osize 0).toNat := Nat.mul_le_mul_right _ hc
    rw [Nat.add_mul, Nat.one_mul] at this
    exact_mod_cast (by omega : c * (b.osize 0).toNat + k < (numLines b).toNat * (b.osize 0).toNat)
  obtain ⟨r, r1, r2, r3, r4⟩ := gpuR2R_lines (all := D.all) hall (sched := D.sched tag) (hsched tag) (lib := D.lib tag b)
    (t := .ofBox z b D.aligned (D.addr tag)) (N := (b.osize 0).toNat) (L := (numLines b).toNat) rfl hN.symm hL.symm hn (by omega) hw (hlib tag hr) fwd
    (hws tag hr) h0 (data := l) (by rw [hLN]; exact hlen) (X := fun c k => (rd l (base + (c : Int) * b.osize 0 + (k : Nat))).getD 0) (by
      intro c hc k hk
      have h1 := cell c k hc hk
      have e : base + ((c * (b.osize 0).toNat + k : Nat) : Int) = base + (c : Int) * b.osize 0 + (k : Nat) := by push_cast; rw [hN]; ring
      rw [e] at *
      have h2 : 0 ≤ (c : Int) * b.osize 0 := mul_nonneg (by omega) p0.le
      have h3 : (c : Int) * b.osize 0 + k < b.count := by
        push_cast at h1; rw [hN] at h1; exact h1
      unfold rd
      rw [if_pos (by omega), List.getElem?_eq_getElem (by omega)]
      rfl)
  rw [hLN] at r4
  refine ⟨r, r1, r2, ?_, r4⟩
  have := holds_of_lines (z := z) (r := r) ho hb hn fwd hG (by
    intro c hc0 hc1 k hk
    obtain ⟨c, rfl⟩ := Int.eq_ofNat_of_zero_le hc0
    have := r3 c (by omega) k hk
    rw [← this]
    push_cast
    rw [hN, add_assoc])
  rw [along_world hs] at this
  exact this

end
end Verif
