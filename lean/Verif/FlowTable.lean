import Verif.SpecFlow

/-!
# All the situations of a rank, checked one by one
-/

namespace Verif

theorem flow_table : (Case.all.all fun c => !c.consistent || (decide (Runs c) == !c.bad)) = true := by decide +kernel

theorem runs_iff {c : Case} (h : c.consistent = true) : Runs c ↔ c.bad = false := by
  have := List.all_eq_true.1 flow_table c (Case.mem_all c)
  rw [h] at this
  have this : decide (Runs c) = !c.bad := by simpa using this
  rw [← decide_eq_true_iff (p := Runs c), this]
  simp

end Verif
