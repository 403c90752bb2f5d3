import Verif.Model.Physics
import Verif.Spec.Physics
import Mathlib.Tactic.Positivity
import Mathlib.Tactic.FieldSimp
import Mathlib.Tactic.Ring
import Mathlib.Tactic.CasesM
import Mathlib.Tactic.Linarith

/-!
# Lemmas and a tactic for the physics helpers
-/

namespace Verif

open Out

theorem guarded_of {c : Bool} {bad : Prop} {v : ℝ} {o : XR} (h1 : c = true ↔ bad) (h2 : ¬bad → o = XR.fin v) :
    Guarded bad v (if c then (-EINVAL, (CReal.nan : XR)) else (0, o)) := by
  by_cases h : bad
  · rw [if_pos (h1.2 h)]; exact Or.inl ⟨h, rfl⟩
  · rw [if_neg (fun hc => h (h1.1 hc)), h2 h]; exact Or.inr ⟨h, rfl⟩

theorem guarded_of2 {c d : Bool} {bad1 bad2 bad : Prop} {v : ℝ} {o : XR} (h : bad ↔ bad1 ∨ bad2) (h1 : c = true ↔ bad1)
    (h2 : ¬bad1 → (d = true ↔ bad2)) (h3 : ¬bad1 → ¬bad2 → o = XR.fin v) :
    Guarded bad v (if c then (-EINVAL, (CReal.nan : XR)) else if d then (-EINVAL, (CReal.nan : XR)) else (0, o)) := by
  by_cases hb : bad1
  · rw [if_pos (h1.2 hb)]; exact Or.inl ⟨h.2 (Or.inl hb), rfl⟩
  · rw [if_neg (fun hc => hb (h1.1 hc))]
    by_cases hb2 : bad2
    · rw [if_pos ((h2 hb).2 hb2)]; exact Or.inl ⟨h.2 (Or.inr hb2), rfl⟩
    · rw [if_neg (fun hc => hb2 ((h2 hb).1 hc)), h3 hb hb2]
      exact Or.inr ⟨fun hc => (h.1 hc).elim hb hb2, rfl⟩

theorem guarded_free {v : ℝ} {o : XR} (h : o = XR.fin v) : Guarded False v (0, o) := by
  rw [h]; exact Or.inr ⟨id, rfl⟩

theorem zslPermFreeSpace_eq : (zslPermFreeSpace : XR) = XR.fin Phys.ε₀ := by
  unfold zslPermFreeSpace Phys.ε₀; rw [XR.lit_eq]; norm_num
theorem zslUnivGrav_eq : (zslUnivGrav : XR) = XR.fin Phys.G := by
  unfold zslUnivGrav Phys.G; rw [XR.lit_eq]; norm_num
theorem zslGravEarth_eq : (zslGravEarth : XR) = XR.fin Phys.g := by
  unfold zslGravEarth Phys.g; rw [XR.lit_eq]; norm_num
theorem zslNuclRadius_eq : (zslNuclRadius : XR) = XR.fin Phys.r₀ := by
  unfold zslNuclRadius Phys.r₀; rw [XR.lit_eq]; norm_num
theorem zslPlanck_eq : (zslPlanck : XR) = XR.fin Phys.h := by
  unfold zslPlanck Phys.h; rw [XR.lit_eq]; norm_num
theorem zslRedPlanck_eq : (zslRedPlanck : XR) = XR.fin Phys.hbar := by
  unfold zslRedPlanck Phys.hbar; rw [XR.lit_eq]; norm_num
theorem zslECharge_eq : (zslECharge : XR) = XR.fin Phys.e := by
  unfold zslECharge Phys.e; rw [XR.lit_eq]; norm_num
theorem lit_ev : (lit 1.602176634e-19 : XR) = XR.fin Phys.e := by
  unfold Phys.e; rw [XR.lit_eq]; norm_num
theorem zslCoulomb_eq : (zslCoulomb : XR) = XR.fin Phys.k := by
  unfold zslCoulomb Phys.k; rw [XR.lit_eq]; norm_num
theorem zslEMass_eq : (zslEMass : XR) = XR.fin Phys.me := by
  unfold zslEMass Phys.me; rw [XR.lit_eq]; norm_num
theorem zslLightSpeed_eq : (zslLightSpeed : XR) = XR.fin Phys.c := by
  unfold zslLightSpeed Phys.c; rw [XR.lit_eq]; norm_num
theorem zslIdealGas_eq : (zslIdealGas : XR) = XR.fin Phys.Rgas := by
  unfold zslIdealGas Phys.Rgas; rw [XR.lit_eq]; norm_num
theorem zslPi_eq : (zslPi : XR) = XR.fin Phys.π' := by
  unfold zslPi Phys.π'; rw [XR.lit_eq]; norm_num
theorem zslE_eq : (zslE : XR) = XR.fin Phys.e' := by
  unfold zslE Phys.e'; rw [XR.lit_eq]; norm_num

/-- Closes an equation between two values of formulas. -/
macro "phys_eq" : tactic => `(tactic| (
  (try simp (disch := first | assumption | positivity | exact add_nonneg (mul_self_nonneg _) (mul_self_nonneg _)) only [XR.fin_div, XR.fin_mul, XR.fin_add, XR.fin_sub, XR.fin_neg,
    XR.fin_exp, XR.fin_sqrt, XR.fin_abs]) <;>
  refine XR.fin_inj.2 ?_ <;>
  first
    | rfl
    | ring1
    | (field_simp; done)
    | (field_simp; ring1)
    | (ring_nf; done)))

/-- Evaluates a formula on finite inputs up to divisions. -/
macro "phys_unfold" f:ident : tactic => `(tactic| (
  have := Phys.ε₀_pos; have := Phys.G_pos; have := Phys.g_pos; have := Phys.r₀_pos; have := Phys.h_pos
  have := Phys.hbar_pos; have := Phys.e_pos; have := Phys.k_pos; have := Phys.me_pos; have := Phys.c_pos
  have := Phys.Rgas_pos; have := Phys.π'_pos; have := Phys.e'_pos
  unfold $f
  try simp only [lit_ev]
  simp only [zslPermFreeSpace_eq, zslUnivGrav_eq, zslGravEarth_eq, zslNuclRadius_eq, zslPlanck_eq, zslRedPlanck_eq,
    zslECharge_eq, zslCoulomb_eq, zslEMass_eq, zslLightSpeed_eq, zslIdealGas_eq, zslPi_eq, zslE_eq,
    XR.lit_eq, Rat.cast_zero, Rat.cast_one, Rat.cast_ofNat, Rat.cast_ofScientific, XR.ofNat_eq,
    XR.fin_mul, XR.fin_add, XR.fin_sub, XR.fin_neg, XR.fin_sin, XR.fin_cos]))

/-- Proves `Guarded` for a helper with a guard. -/
macro "phys" f:ident : tactic => `(tactic| (
  phys_unfold $f
  refine guarded_of ?_ ?_
  · simp only [Bool.or_eq_true, XR.fin_lt, XR.fin_le, XR.fin_eq, XR.fin_gt, XR.fin_ge, beq_iff_eq, or_assoc, sq]
  · intro hbad
    try simp only [not_or, not_lt, not_le, sq] at hbad
    try casesm* _ ∧ _
    phys_eq))

/-- Proves `Guarded` for a helper without a guard. -/
macro "phys0" f:ident : tactic => `(tactic| (
  phys_unfold $f
  refine guarded_free ?_
  phys_eq))

end Verif
