import Verif.Model.Chemistry
import Verif.Base.XR

/-!
# The table of atomic weights
-/

namespace Verif

open Out

theorem chem_length : chemAtomWeight.length = 119 := by decide +kernel

/-- The enumerators are numbered by atomic number: the `i`-th (from 1) has value `i`, there are 118, and names do not repeat. -/
theorem chem_elements_numbered :
    chemElements.map Prod.snd = (List.range 118).map (· + 1) ∧ (chemElements.map Prod.fst).Nodup := by
  decide +kernel

/-- C80. Looking up the weight of any element of the enumeration is inside the table and gives a finite number; it is 0
exactly for the 24 elements from 95 on, and otherwise lies between the atomic number `z` and `3 z` (a nucleus has `z` protons and
at most twice as many neutrons). -/
theorem chem_weight_correct (name : String) (z : Nat) (h : (name, z) ∈ chemElements) :
    ∃ q : ℚ, chemWeight (R := XR) z = ok (XR.fin q) ∧ (z ≤ 94 → (z : ℚ) ≤ q ∧ q ≤ 3 * z) ∧ (95 ≤ z → q = 0) := by
  have hz : z < 119 := by
    have h1 : z ∈ chemElements.map Prod.snd := List.mem_map_of_mem (f := Prod.snd) h
    rw [chem_elements_numbered.1] at h1
    obtain ⟨i, hi, rfl⟩ := List.mem_map.1 h1
    rw [List.mem_range] at hi
    show i + 1 < 119
    omega
  have hz0 : 0 < z := by
    have h1 : z ∈ chemElements.map Prod.snd := List.mem_map_of_mem (f := Prod.snd) h
    rw [chem_elements_numbered.1] at h1
    obtain ⟨i, hi, rfl⟩ := List.mem_map.1 h1
    exact Nat.succ_pos i
  have tab : ∀ i : Fin 119, (0 < i.1 → i.1 ≤ 94 → ((i.1 : ℕ) : ℚ) ≤ chemAtomWeight[i.1]'(by rw [chem_length]; exact i.2) ∧
      chemAtomWeight[i.1]'(by rw [chem_length]; exact i.2) ≤ 3 * ((i.1 : ℕ) : ℚ)) ∧
      (95 ≤ i.1 → chemAtomWeight[i.1]'(by rw [chem_length]; exact i.2) = 0) := by
    decide +kernel
  refine ⟨chemAtomWeight[z]'(by rw [chem_length]; exact hz), ?_, (tab ⟨z, hz⟩).1 hz0, (tab ⟨z, hz⟩).2⟩
  unfold chemWeight
  rw [rd_lt (by rw [chem_length]; exact hz), ok_bind, XR.lit_eq]
  rfl

/-- C80. Weights grow with the atomic number up to 94, except at the five known inversions (argon/potassium, cobalt/nickel,
tellurium/iodine, thorium/protactinium, uranium/neptunium). -/
theorem chem_weight_increasing (z : Nat) (h0 : 0 < z) (h : z < 94) (hx : z ∉ [18, 27, 52, 90, 92]) :
    ∃ p q : ℚ, chemWeight (R := XR) z = ok (XR.fin p) ∧ chemWeight (R := XR) (z + 1) = ok (XR.fin q) ∧ p < q := by
  have tab : ∀ i : Fin 94, 0 < i.1 → i.1 ∉ [18, 27, 52, 90, 92] →
      chemAtomWeight[i.1]'(chem_length ▸ i.2.trans (by decide)) <
        chemAtomWeight[i.1 + 1]'(chem_length ▸ (Nat.succ_lt_succ i.2).trans (by decide)) := by
    clear hx h h0 z
    decide +kernel
  refine ⟨chemAtomWeight[z]'(by rw [chem_length]; omega), chemAtomWeight[z + 1]'(by rw [chem_length]; omega), ?_, ?_, tab ⟨z, h⟩ h0 hx⟩
  · unfold chemWeight
    rw [rd_lt (by rw [chem_length]; omega), ok_bind, XR.lit_eq]
    rfl
  · unfold chemWeight
    rw [rd_lt (by rw [chem_length]; omega), ok_bind, XR.lit_eq]
    rfl

/-- C80. Index 0 (no element) holds 0, and every index from 119 on is out of bounds. -/
theorem chem_weight_bounds : chemWeight (R := XR) 0 = ok (XR.fin 0) ∧ ∀ z, 119 ≤ z → chemWeight (R := XR) z = ub := by
  refine ⟨?_, fun z hz => ?_⟩
  · unfold chemWeight
    rw [rd_lt (by rw [chem_length]; omega), ok_bind, XR.lit_eq]
    have : chemAtomWeight[0]'(by rw [chem_length]; omega) = 0 := by decide +kernel
    rw [this, Rat.cast_zero]
    rfl
  · unfold chemWeight
    rw [rd_ge (by rw [chem_length]; exact hz)]
    rfl

example : ("IRON", 26) ∈ chemElements := by decide +kernel

end Verif
