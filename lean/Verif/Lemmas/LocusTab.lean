import Verif.Lemmas.LocusDef

/-!
# The black body locus: the computation
-/

namespace Verif.LT

theorem pairs : ∀ i < 301, pairOk (i + 1) = true := by decide +kernel

end Verif.LT
