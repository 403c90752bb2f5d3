import Verif.Spec.Safe
import Verif.Model.Kalman

/-!
# Vocabulary of the memory safety theorems about the sensor fusion
-/

namespace Verif

variable {R : Type}

/-- The buffers of the sensors that are given hold what their sizes promise. -/
def Sens.WF (s : Sens R) : Prop := (∀ v ∈ s.a, v.WF) ∧ (∀ v ∈ s.m, v.WF) ∧ s.g.WF

/-- After a call the same sensors are given, with the same sizes and buffers. -/
def optLike : Option (Vec R) → Option (Vec R) → Prop
  | none, none => True
  | some v, some w => v.Like w
  | _, _ => False

/-- After a call the same sensors are given, with the same sizes and buffers. -/
def Sens.Like (s t : Sens R) : Prop := optLike s.a t.a ∧ optLike s.m t.m ∧ s.g.Like t.g

/-- As `Sens.WF`, for the three pointers of the Kalman filter. -/
def Sens3.WF (s : Sens3 R) : Prop := (∀ v ∈ s.a, v.WF) ∧ (∀ v ∈ s.m, v.WF) ∧ ∀ v ∈ s.g, v.WF

/-- As `Sens.Like`, for the three pointers of the Kalman filter. -/
def Sens3.Like (s t : Sens3 R) : Prop := optLike s.a t.a ∧ optLike s.m t.m ∧ optLike s.g t.g

end Verif
