import Verif.Base.Out

/-!
# The same call in two builds

The vocabulary of C147: a call in a build with the bounds checks, and the same call in a build without them.
-/

namespace Verif

/-- Whenever the call returns 0 in the build with the checks, it does exactly the same in the build without them: same return code, same output,
nothing read or written outside the arrays. -/
def SameIfAccepted {α : Type} (checked unchecked : Out (Int × α)) : Prop := ∀ out, checked = .ok (0, out) → unchecked = .ok (0, out)

end Verif
