import Verif.SpecDft

/-!
# Weights for sums over half spectra (spec)
-/

namespace Verif

/-- How often the entry `p` of a half spectrum occurs in the full one: once in the first plane of the shortened direction and in the last one of an even length, else twice. -/
def halfWeight (w : Box) (d : Fin 3) (p : A3 Int) : Nat := if w.rel p d = 0 ∨ 2 * w.rel p d = w.extent d then 1 else 2

end Verif
