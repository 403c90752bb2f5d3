import Verif.Props.Phys1
import Verif.Props.Phys2
import Verif.Lemmas.VecReal
import Verif.Props.Vectors3

/-!
# Laws of mechanics, circuits and temperatures
-/

namespace Verif

open Out Phys

theorem Guarded.value {bad : Prop} {v : ℝ} {o : Int × XR} (h : Guarded bad v o) (hb : ¬bad) : o = (0, XR.fin v) := by
  rcases h with ⟨h, -⟩ | ⟨-, h⟩
  · exact absurd h hb
  · exact h

theorem Guarded.rejects {bad : Prop} {v : ℝ} {o : Int × XR} (h : Guarded bad v o) (hb : bad) : o = (-EINVAL, XR.nan) := by
  rcases h with ⟨-, h⟩ | ⟨h, -⟩
  · exact h
  · exact absurd hb h

/-! ### Collisions -/

/-- C74. The velocity returned by `zsl_phy_mom_elas` conserves momentum. -/
theorem mom_elas_conserves (m₁ v₁ w₁ m₂ v₂ : ℝ) (h1 : 0 ≤ m₁) (h2 : 0 < m₂) :
    ∃ w₂ : ℝ, phyMomElas (XR.fin m₁) (XR.fin v₁) (XR.fin w₁) (XR.fin m₂) (XR.fin v₂) = (0, XR.fin w₂) ∧
      m₁ * v₁ + m₂ * v₂ = m₁ * w₁ + m₂ * w₂ := by
  refine ⟨_, (phy_mom_elas_correct m₁ v₁ w₁ m₂ v₂).value (by rw [not_or]; exact ⟨not_lt.2 h1, not_le.2 h2⟩), ?_⟩
  field_simp
  ring

/-- C74. `zsl_phy_mom_inelas` conserves momentum, its velocity lies between the initial ones, and kinetic energy is not gained. -/
theorem mom_inelas_conserves (m₁ v₁ m₂ v₂ : ℝ) (h1 : 0 ≤ m₁) (h2 : 0 ≤ m₂) (h : m₁ + m₂ ≠ 0) :
    ∃ w : ℝ, phyMomInelas (XR.fin m₁) (XR.fin v₁) (XR.fin m₂) (XR.fin v₂) = (0, XR.fin w) ∧
      m₁ * v₁ + m₂ * v₂ = (m₁ + m₂) * w ∧ min v₁ v₂ ≤ w ∧ w ≤ max v₁ v₂ ∧
      (m₁ + m₂) * w ^ 2 / 2 ≤ m₁ * v₁ ^ 2 / 2 + m₂ * v₂ ^ 2 / 2 := by
  have hp : 0 < m₁ + m₂ := lt_of_le_of_ne (by positivity) h.symm
  refine ⟨_, (phy_mom_inelas_correct m₁ v₁ m₂ v₂).value (by
    rw [not_or, not_or]; exact ⟨not_lt.2 h1, not_lt.2 h2, h⟩), ?_, ?_, ?_, ?_⟩
  · field_simp
  · rw [le_div_iff₀ hp]
    nlinarith [mul_le_mul_of_nonneg_left (min_le_left v₁ v₂) h1, mul_le_mul_of_nonneg_left (min_le_right v₁ v₂) h2]
  · rw [div_le_iff₀ hp]
    nlinarith [mul_le_mul_of_nonneg_left (le_max_left v₁ v₂) h1, mul_le_mul_of_nonneg_left (le_max_right v₁ v₂) h2]
  · have e : (m₁ + m₂) * ((m₁ * v₁ + m₂ * v₂) / (m₁ + m₂)) ^ 2 / 2 = (m₁ * v₁ + m₂ * v₂) ^ 2 / (2 * (m₁ + m₂)) := by
      field_simp
    rw [e, div_le_iff₀ (by positivity)]
    nlinarith [mul_nonneg (mul_nonneg h1 h2) (sq_nonneg (v₁ - v₂))]

/-- C74. Negative masses (and a massless second body, or no mass at all) are refused. -/
theorem mom_rejects (m₁ v₁ w₁ m₂ v₂ : ℝ) :
    (m₁ < 0 ∨ m₂ ≤ 0 → phyMomElas (XR.fin m₁) (XR.fin v₁) (XR.fin w₁) (XR.fin m₂) (XR.fin v₂) = (-EINVAL, XR.nan)) ∧
      (m₁ < 0 ∨ m₂ < 0 ∨ m₁ + m₂ = 0 →
        phyMomInelas (XR.fin m₁) (XR.fin v₁) (XR.fin m₂) (XR.fin v₂) = (-EINVAL, XR.nan)) :=
  ⟨(phy_mom_elas_correct m₁ v₁ w₁ m₂ v₂).rejects, (phy_mom_inelas_correct m₁ v₁ m₂ v₂).rejects⟩

example : ∃ w : ℝ, phyMomInelas (XR.fin 2) (XR.fin 3) (XR.fin 1) (XR.fin 0) = (0, XR.fin w) ∧ 2 * 3 + 1 * 0 = (2 + 1) * w := by
  obtain ⟨w, hw, he, -⟩ := mom_inelas_conserves 2 3 1 0 (by norm_num) (by norm_num) (by norm_num)
  exact ⟨w, hw, he⟩

/-! ### Centre of mass -/

variable {n : ℕ}

theorem isNonneg_vec (m : Fin n → ℝ) (t : List XR) : vecIsNonneg (vec m t) = ok (decide (∀ i, 0 ≤ m i)) := by
  have hv := vec_is m t
  rw [vec_is_nonneg_correct _ hv.wf, hv.vals]
  congr 1
  rw [Bool.eq_iff_iff]
  simp

/-- C74. `zsl_phy_mass_center`: the mass-weighted mean of the positions. -/
theorem mass_center_correct (m x y z : Fin (n + 1) → ℝ) (tm tx ty tz : List XR) (a b d : XR) (hm : ∀ i, 0 ≤ m i)
    (hs : ∑ i, m i ≠ 0) :
    phyMassCenter (vec m tm) (vec x tx) (vec y ty) (vec z tz) a b d =
      ok (0, XR.fin ((∑ i, m i * x i) / ∑ i, m i), XR.fin ((∑ i, m i * y i) / ∑ i, m i),
        XR.fin ((∑ i, m i * z i) / ∑ i, m i)) := by
  unfold phyMassCenter
  rw [if_neg (by simp [vec_sz])]
  simp only [vecDot_vec, vec_ar_mean_correct _ _ _ (vec_is m tm), isNonneg_vec, ok_bind, vec_sz]
  have hn : ((n : ℝ) + 1) ≠ 0 := by positivity
  have e : (XR.fin ((∑ i, m i) / ((n : ℝ) + 1)) * CReal.ofNat (n + 1) : XR) = XR.fin (∑ i, m i) := by
    rw [XR.ofNat_eq, XR.fin_mul]; push_cast; rw [div_mul_cancel₀ _ hn]
  rw [if_neg (by simp), if_neg (by simp), if_neg (by simp), if_neg (by simp), if_neg (by simpa using hm)]
  refine Eq.trans (if_neg ?_) ?_
  · rw [e, XR.lit_eq, XR.fin_eq]; simpa using hs
  · rw [e, XR.fin_div hs, XR.fin_div hs, XR.fin_div hs]
    rfl

/-- C74. The centre of mass lies in every box that holds the particles with a mass. -/
theorem mass_center_in_box (m x y z : Fin (n + 1) → ℝ) (tm tx ty tz : List XR) (a b d : XR) (hm : ∀ i, 0 ≤ m i)
    (hs : ∑ i, m i ≠ 0) (lo hi : Fin 3 → ℝ) (hx : ∀ i, m i ≠ 0 → lo 0 ≤ x i ∧ x i ≤ hi 0)
    (hy : ∀ i, m i ≠ 0 → lo 1 ≤ y i ∧ y i ≤ hi 1) (hz : ∀ i, m i ≠ 0 → lo 2 ≤ z i ∧ z i ≤ hi 2) :
    ∃ c : Fin 3 → ℝ, phyMassCenter (vec m tm) (vec x tx) (vec y ty) (vec z tz) a b d =
      ok (0, XR.fin (c 0), XR.fin (c 1), XR.fin (c 2)) ∧ ∀ k, lo k ≤ c k ∧ c k ≤ hi k := by
  have hp : 0 < ∑ i, m i := lt_of_le_of_ne (Finset.sum_nonneg fun i _ => hm i) hs.symm
  have key : ∀ (u : Fin (n + 1) → ℝ) (l h : ℝ), (∀ i, m i ≠ 0 → l ≤ u i ∧ u i ≤ h) →
      l ≤ (∑ i, m i * u i) / ∑ i, m i ∧ (∑ i, m i * u i) / ∑ i, m i ≤ h := by
    intro u l h hu
    rw [le_div_iff₀ hp, div_le_iff₀ hp, Finset.mul_sum, Finset.mul_sum]
    constructor <;> refine Finset.sum_le_sum fun i _ => ?_
    · by_cases h0 : m i = 0
      · simp [h0]
      · rw [mul_comm]; exact mul_le_mul_of_nonneg_left (hu i h0).1 (hm i)
    · by_cases h0 : m i = 0
      · simp [h0]
      · rw [mul_comm h]; exact mul_le_mul_of_nonneg_left (hu i h0).2 (hm i)
  refine ⟨![_, _, _], mass_center_correct m x y z tm tx ty tz a b d hm hs, fun k => ?_⟩
  fin_cases k
  · exact key x _ _ hx
  · exact key y _ _ hy
  · exact key z _ _ hz

/-- C74. Moving all particles by `(p, q, r)` moves the centre of mass by the same. -/
theorem mass_center_translate (m x y z : Fin (n + 1) → ℝ) (tm tx ty tz : List XR) (a b d : XR) (hm : ∀ i, 0 ≤ m i)
    (hs : ∑ i, m i ≠ 0) (p q r : ℝ) :
    ∃ u v w : ℝ, phyMassCenter (vec m tm) (vec x tx) (vec y ty) (vec z tz) a b d = ok (0, XR.fin u, XR.fin v, XR.fin w) ∧
      phyMassCenter (vec m tm) (vec (fun i => x i + p) tx) (vec (fun i => y i + q) ty) (vec (fun i => z i + r) tz) a b d =
        ok (0, XR.fin (u + p), XR.fin (v + q), XR.fin (w + r)) := by
  refine ⟨_, _, _, mass_center_correct m x y z tm tx ty tz a b d hm hs, ?_⟩
  rw [mass_center_correct m _ _ _ tm tx ty tz a b d hm hs]
  have key : ∀ (u : Fin (n + 1) → ℝ) (p : ℝ), (∑ i, m i * (u i + p)) / ∑ i, m i = (∑ i, m i * u i) / ∑ i, m i + p := by
    intro u p
    simp only [mul_add, Finset.sum_add_distrib, ← Finset.sum_mul]
    rw [add_div, mul_comm, mul_div_assoc, div_self hs, mul_one]
  rw [key, key, key]

/-- C74. A negative mass, or no mass at all, is refused with NaN. -/
theorem mass_center_rejects (m x y z : Fin (n + 1) → ℝ) (tm tx ty tz : List XR) (a b d : XR)
    (h : (∃ i, m i < 0) ∨ ∀ i, m i = 0) :
    phyMassCenter (vec m tm) (vec x tx) (vec y ty) (vec z tz) a b d = ok (-EINVAL, XR.nan, XR.nan, XR.nan) := by
  unfold phyMassCenter
  rw [if_neg (by simp [vec_sz])]
  simp only [vecDot_vec, vec_ar_mean_correct _ _ _ (vec_is m tm), isNonneg_vec, ok_bind, vec_sz]
  rw [if_neg (by simp), if_neg (by simp), if_neg (by simp), if_neg (by simp)]
  by_cases hn : ∀ i, 0 ≤ m i
  · have h0 : ∀ i, m i = 0 := h.resolve_left fun ⟨i, hi⟩ => absurd (hn i) (not_le.2 hi)
    rw [if_neg (by simpa using hn)]
    refine Eq.trans (if_pos ?_) rfl
    rw [XR.ofNat_eq, XR.fin_mul, XR.lit_eq, XR.fin_eq]; simp [h0]
  · rw [if_pos (by simpa using hn)]
    rfl

/-- C74. Vectors of different sizes are refused. -/
theorem mass_center_sizes {R : Type} [CReal R] (m x y z : Vec R) (a b d : R) (h : ¬(m.sz = x.sz ∧ x.sz = y.sz ∧ y.sz = z.sz)) :
    phyMassCenter m x y z a b d = ok (-EINVAL, CReal.nan, CReal.nan, CReal.nan) := by
  unfold phyMassCenter
  rw [if_pos (by tauto)]

example : ∃ u v w : ℝ, phyMassCenter (vec ![1, 3] []) (vec ![0, 4] []) (vec ![0, 0] []) (vec ![1, 1] []) XR.nan XR.nan XR.nan =
    ok (0, XR.fin u, XR.fin v, XR.fin w) ∧ u = 3 := by
  refine ⟨_, _, _, mass_center_correct ![1, 3] ![0, 4] ![0, 0] ![1, 1] [] [] [] [] _ _ _ ?_ ?_, ?_⟩
  · intro i; fin_cases i <;> simp
  · simp; norm_num
  · simp; norm_num

/-! ### Kinematics -/

/-- C75. Motion under constant acceleration from `x₀`, `v₀` for a time `t > 0`: from the distance and the velocity the helpers
report, the other helpers recover the acceleration, the initial velocity (two ways), the initial position and the time. -/
theorem kin_consistent (v₀ a t x₀ : ℝ) (ht : 0 < t) :
    ∃ s v : ℝ, phyKinDist (XR.fin v₀) (XR.fin t) (XR.fin a) = (0, XR.fin s) ∧
      phyKinVel (XR.fin v₀) (XR.fin t) (XR.fin a) = (0, XR.fin v) ∧
      phyKinAccel (XR.fin v₀) (XR.fin v) (XR.fin t) = (0, XR.fin a) ∧
      phyKinInitVel (XR.fin v) (XR.fin a) (XR.fin t) = (0, XR.fin v₀) ∧
      phyKinInitVel2 (XR.fin s) (XR.fin a) (XR.fin t) = (0, XR.fin v₀) ∧
      phyKinInitPos (XR.fin v₀) (XR.fin t) (XR.fin a) (XR.fin (x₀ + s)) = (0, XR.fin x₀) ∧
      phyKinVel2 (XR.fin v₀) (XR.fin s) (XR.fin a) = (0, XR.fin |v|) ∧
      phyKinInitVel3 (XR.fin v) (XR.fin a) (XR.fin s) = (0, XR.fin |v₀|) ∧
      phyKinAvVel (XR.fin s) (XR.fin t) = (0, XR.fin ((v₀ + v) / 2)) ∧
      (a ≠ 0 → phyKinTime (XR.fin v₀) (XR.fin v) (XR.fin a) = (0, XR.fin t) ∧
        phyKinInitPos2 (XR.fin v₀) (XR.fin v) (XR.fin a) (XR.fin (x₀ + s)) = (0, XR.fin x₀)) := by
  have n0 : ¬t < 0 := by linarith
  have n1 : ¬t ≤ 0 := by linarith
  refine ⟨_, _, (phy_kin_dist_correct v₀ t a).value n0, (phy_kin_vel_correct v₀ t a).value n0, ?_, ?_, ?_, ?_, ?_, ?_, ?_, ?_⟩
  · rw [(phy_kin_accel_correct _ _ _).value n1]; congr 2; field_simp; ring
  · rw [(phy_kin_init_vel_correct _ _ _).value n0]; congr 2; ring
  · rw [(phy_kin_init_vel2_correct _ _ _).value n1]; congr 2; field_simp; ring
  · rw [(phy_kin_init_pos_correct _ _ _ _).value n0]; congr 2; ring
  · have e : v₀ ^ 2 + 2 * a * (v₀ * t + a * t ^ 2 / 2) = (v₀ + a * t) ^ 2 := by ring
    rw [(phy_kin_vel2_correct _ _ _).value (by rw [e, not_lt]; positivity), e, Real.sqrt_sq_eq_abs]
  · have e : (v₀ + a * t) ^ 2 - 2 * a * (v₀ * t + a * t ^ 2 / 2) = v₀ ^ 2 := by ring
    rw [(phy_kin_init_vel3_correct _ _ _).value (by rw [e, not_lt]; positivity), e, Real.sqrt_sq_eq_abs]
  · rw [(phy_kin_av_vel_correct _ _).value n1]; congr 2; field_simp; ring
  · intro ha
    have e : (v₀ + a * t - v₀) / a = t := by field_simp; ring
    refine ⟨?_, ?_⟩
    · rw [(phy_kin_time_correct _ _ _).value (by rw [e, not_or]; exact ⟨ha, n0⟩), e]
    · rw [(phy_kin_init_pos2_correct _ _ _ _).value ha]; congr 2; field_simp; ring

/-- C75. The rotational helpers satisfy the same relations, and agree with the linear ones at radius `r`. -/
theorem rot_consistent (ω₀ a t r : ℝ) (ht : 0 < t) (hr : 0 ≤ r) :
    ∃ φ ω : ℝ, phyRotAngle (XR.fin ω₀) (XR.fin t) (XR.fin a) = (0, XR.fin φ) ∧
      phyRotOmega (XR.fin ω₀) (XR.fin t) (XR.fin a) = (0, XR.fin ω) ∧
      phyRotAngAccel (XR.fin ω₀) (XR.fin ω) (XR.fin t) = (0, XR.fin a) ∧
      phyRotOmega2 (XR.fin ω₀) (XR.fin φ) (XR.fin a) = (0, XR.fin |ω|) ∧
      phyRotAvOmega (XR.fin φ) (XR.fin t) = (0, XR.fin ((ω₀ + ω) / 2)) ∧
      (a ≠ 0 → phyRotTime (XR.fin ω₀) (XR.fin ω) (XR.fin a) = (0, XR.fin t)) ∧
      (∃ v₀ v α : ℝ, phyRotVel (XR.fin ω₀) (XR.fin r) = (0, XR.fin v₀) ∧ phyRotVel (XR.fin ω) (XR.fin r) = (0, XR.fin v) ∧
        phyRotAccel (XR.fin a) (XR.fin r) = (0, XR.fin α) ∧ phyKinVel (XR.fin v₀) (XR.fin t) (XR.fin α) = (0, XR.fin v) ∧
        phyKinDist (XR.fin v₀) (XR.fin t) (XR.fin α) = phyRotDist (XR.fin φ) (XR.fin r)) := by
  have n0 : ¬t < 0 := by linarith
  have n1 : ¬t ≤ 0 := by linarith
  have nr : ¬r < 0 := by linarith
  refine ⟨_, _, (phy_rot_angle_correct ω₀ t a).value n0, (phy_rot_omega_correct ω₀ t a).value n0, ?_, ?_, ?_, ?_, ?_⟩
  · rw [(phy_rot_ang_accel_correct _ _ _).value n1]; congr 2; field_simp; ring
  · have e : ω₀ ^ 2 + 2 * a * (ω₀ * t + a * t ^ 2 / 2) = (ω₀ + a * t) ^ 2 := by ring
    rw [(phy_rot_omega2_correct _ _ _).value (by rw [e, not_lt]; positivity), e, Real.sqrt_sq_eq_abs]
  · rw [(phy_rot_av_omega_correct _ _).value n1]; congr 2; field_simp; ring
  · intro ha
    have e : (ω₀ + a * t - ω₀) / a = t := by field_simp; ring
    rw [(phy_rot_time_correct _ _ _).value (by rw [e, not_or]; exact ⟨ha, n0⟩), e]
  · refine ⟨_, _, _, (phy_rot_vel_correct _ _).value nr, (phy_rot_vel_correct _ _).value nr,
      (phy_rot_accel_correct _ _).value nr, ?_, ?_⟩
    · rw [(phy_kin_vel_correct _ _ _).value n0]; congr 2; ring
    · rw [(phy_kin_dist_correct _ _ _).value n0, (phy_rot_dist_correct _ _).value nr]; congr 2; ring

/-! ### Projectiles -/

/-- C76. At the time `zsl_phy_proj_time` reports, the height is the requested one, and at no later time. -/
theorem proj_time_correct (v y₀ y t : ℝ) (h : phyProjTime (XR.fin v) (XR.fin y₀) (XR.fin y) = (0, XR.fin t)) :
    y₀ + v * t - g * t ^ 2 / 2 = y ∧ ∀ t', t < t' → y₀ + v * t' - g * t' ^ 2 / 2 < y := by
  have hg := g_pos
  rcases phy_proj_time_correct v y₀ y with ⟨-, h'⟩ | ⟨hb, h'⟩
  · rw [h', Prod.mk.injEq] at h; exact absurd h.1 (by decide)
  · rw [h', Prod.mk.injEq, XR.fin_inj] at h
    rw [not_lt] at hb
    set s := Real.sqrt (v ^ 2 + 2 * g * (y₀ - y)) with hs
    have hss : s ^ 2 = v ^ 2 + 2 * g * (y₀ - y) := Real.sq_sqrt hb
    have hs0 : 0 ≤ s := Real.sqrt_nonneg _
    have ht : s = g * t - v := by rw [← h.2]; field_simp; ring
    have hy : y₀ + v * t - g * t ^ 2 / 2 = y := by
      have : g * (y₀ + v * t - g * t ^ 2 / 2 - y) = 0 := by rw [ht] at hss; nlinarith
      have := (mul_eq_zero.1 this).resolve_left hg.ne'
      linarith
    refine ⟨hy, fun t' htt => ?_⟩
    have hd : y₀ + v * t' - g * t' ^ 2 / 2 - y = (t' - t) * (v - g * (t + t') / 2) := by rw [← hy]; ring
    have hneg : v - g * (t + t') / 2 < 0 := by
      rw [ht] at hs0; nlinarith
    nlinarith [mul_neg_of_pos_of_neg (sub_pos.2 htt) hneg]

/-- C76. `zsl_phy_proj_time` succeeds exactly when the height is reachable (at some time before or after the launch). -/
theorem proj_time_reachable (v y₀ y : ℝ) :
    (∃ t : ℝ, phyProjTime (XR.fin v) (XR.fin y₀) (XR.fin y) = (0, XR.fin t)) ↔ ∃ t : ℝ, y₀ + v * t - g * t ^ 2 / 2 = y := by
  constructor
  · rintro ⟨t, ht⟩; exact ⟨t, (proj_time_correct v y₀ y t ht).1⟩
  · rintro ⟨t, rfl⟩
    refine ⟨_, (phy_proj_time_correct _ _ _).value ?_⟩
    rw [not_lt]
    nlinarith [sq_nonneg (v - g * t)]

/-- C76, refuted: the time of flight can be negative, with code 0: an object thrown downwards was at a greater height only before
the launch. -/
theorem proj_time_negative (v y₀ y : ℝ) (hv : v < 0) (hy : y₀ < y) (hr : 2 * g * (y - y₀) ≤ v ^ 2) :
    ∃ t : ℝ, phyProjTime (XR.fin v) (XR.fin y₀) (XR.fin y) = (0, XR.fin t) ∧ t < 0 := by
  have hg := g_pos
  refine ⟨_, (phy_proj_time_correct v y₀ y).value (by rw [not_lt]; nlinarith), ?_⟩
  refine div_neg_of_neg_of_pos ?_ hg
  have : Real.sqrt (v ^ 2 + 2 * g * (y₀ - y)) < -v := by
    rw [Real.sqrt_lt' (by linarith)]
    nlinarith [mul_pos hg (sub_pos.2 hy)]
  linarith

example : ∃ t : ℝ, phyProjTime (XR.fin (-10)) (XR.fin 0) (XR.fin 1) = (0, XR.fin t) ∧ t < 0 :=
  proj_time_negative (-10) 0 1 (by norm_num) (by norm_num) (by unfold g; norm_num)

/-- C76. For a target not above the launch point the flight time is never negative. -/
theorem proj_time_nonneg (v y₀ y : ℝ) (hy : y ≤ y₀) :
    ∃ t : ℝ, phyProjTime (XR.fin v) (XR.fin y₀) (XR.fin y) = (0, XR.fin t) ∧ 0 ≤ t := by
  have hg := g_pos
  have h0 : 0 ≤ 2 * g * (y₀ - y) := mul_nonneg (by positivity) (by linarith)
  refine ⟨_, (phy_proj_time_correct v y₀ y).value (by rw [not_lt]; nlinarith [sq_nonneg v]), div_nonneg ?_ hg.le⟩
  have : |v| ≤ Real.sqrt (v ^ 2 + 2 * g * (y₀ - y)) := by
    rw [← Real.sqrt_sq_eq_abs]; exact Real.sqrt_le_sqrt (by linarith)
  linarith [neg_abs_le v]

/-- C76. `zsl_phy_proj_time_first` is the first time after the launch at which the height is reached. -/
theorem proj_time_first_correct (v y₀ y t : ℝ) (h : phyProjTimeFirst (XR.fin v) (XR.fin y₀) (XR.fin y) = (0, XR.fin t)) :
    0 ≤ t ∧ y₀ + v * t - g * t ^ 2 / 2 = y ∧ ∀ t', 0 ≤ t' → t' < t → y₀ + v * t' - g * t' ^ 2 / 2 < y := by
  have hg := g_pos
  rcases phy_proj_time_first_correct v y₀ y with ⟨-, h'⟩ | ⟨hb, h'⟩
  · rw [h', Prod.mk.injEq] at h; exact absurd h.1 (by decide)
  · rw [h', Prod.mk.injEq, XR.fin_inj] at h
    rw [not_or, not_lt, not_lt] at hb
    set s := Real.sqrt (v ^ 2 + 2 * g * (y₀ - y)) with hs
    have hss : s ^ 2 = v ^ 2 + 2 * g * (y₀ - y) := Real.sq_sqrt hb.1
    have hs0 : 0 ≤ s := Real.sqrt_nonneg _
    have ht : s = v - g * t := by rw [← h.2]; field_simp; ring
    have hy : y₀ + v * t - g * t ^ 2 / 2 = y := by
      have : g * (y₀ + v * t - g * t ^ 2 / 2 - y) = 0 := by rw [ht] at hss; nlinarith
      have := (mul_eq_zero.1 this).resolve_left hg.ne'
      linarith
    refine ⟨?_, hy, fun t' _ htt => ?_⟩
    · rw [← h.2]; exact div_nonneg (sub_nonneg.2 hb.2) hg.le
    have hd : y₀ + v * t' - g * t' ^ 2 / 2 - y = (t' - t) * (v - g * (t + t') / 2) := by rw [← hy]; ring
    have hpos : 0 < v - g * (t + t') / 2 := by
      rw [ht] at hs0; nlinarith
    nlinarith [mul_neg_of_neg_of_pos (sub_neg.2 htt) hpos]

/-- C76. `zsl_phy_proj_time2` inverts `zsl_phy_proj_ver_vel`. -/
theorem proj_time2_correct (v t : ℝ) (ht : 0 ≤ t) :
    ∃ w : ℝ, phyProjVerVel (XR.fin v) (XR.fin t) = (0, XR.fin w) ∧ phyProjTime2 (XR.fin v) (XR.fin w) = (0, XR.fin t) := by
  have hg := g_pos
  refine ⟨_, (phy_proj_ver_vel_correct v t).value (not_lt.2 ht), ?_⟩
  rw [(phy_proj_time2_correct v (v - g * t)).value (by rw [not_lt]; nlinarith)]
  congr 2
  field_simp
  ring

/-- C76. `zsl_phy_proj_trajectory`: the height over a horizontal position is the height at the time of arrival there. -/
theorem proj_trajectory_correct (vh vv x₀ y₀ t : ℝ) (hv : vh ≠ 0) (ht : 0 ≤ t) :
    ∃ x : ℝ, phyProjHorMotion (XR.fin vh) (XR.fin t) (XR.fin x₀) = (0, XR.fin x) ∧
      phyProjTrajectory (XR.fin vh) (XR.fin vv) (XR.fin x₀) (XR.fin y₀) (XR.fin x) =
        phyProjVerMotion (XR.fin vv) (XR.fin t) (XR.fin y₀) := by
  refine ⟨_, (phy_proj_hor_motion_correct vh t x₀).value (not_lt.2 ht), ?_⟩
  have e : (x₀ + vh * t - x₀) / vh = t := by field_simp; ring
  rw [(phy_proj_trajectory_correct vh vv x₀ y₀ (x₀ + vh * t)).value (by rw [e, not_or]; exact ⟨hv, not_lt.2 ht⟩), e,
    (phy_proj_ver_motion_correct vv t y₀).value (not_lt.2 ht)]

/-- C76. `zsl_phy_proj_range`, launched from a height of at least 0: the horizontal distance at the moment of impact (height 0, and no
later time has height 0). -/
theorem proj_range_correct (vh vv x₀ y₀ : ℝ) (hy : 0 ≤ y₀) :
    ∃ t d : ℝ, phyProjRange (XR.fin vh) (XR.fin vv) (XR.fin x₀) (XR.fin y₀) = (0, XR.fin d) ∧ 0 ≤ t ∧ d = vh * t ∧
      y₀ + vv * t - g * t ^ 2 / 2 = 0 ∧ ∀ t', t < t' → y₀ + vv * t' - g * t' ^ 2 / 2 < 0 := by
  obtain ⟨t, ht, h0⟩ := proj_time_nonneg vv y₀ 0 hy
  refine ⟨t, vh * t, ?_, h0, rfl, proj_time_correct vv y₀ 0 t ht⟩
  unfold phyProjRange
  have e : (lit 0 : XR) = XR.fin 0 := by rw [XR.lit_eq]; norm_num
  simp only [e, ht, (phy_proj_hor_motion_correct vh t x₀).value (not_lt.2 h0), XR.fin_sub]
  congr 2
  ring

/-- C76, refuted: from below ground `zsl_phy_proj_range` reports code 0 with NaN when the ground is never reached (it ignores the
error of the time computation), and also when it was reached only before the launch. -/
theorem proj_range_ignores_error (vh vv x₀ y₀ : ℝ) (h : vv ^ 2 + 2 * g * y₀ < 0 ∨ (vv < 0 ∧ y₀ < 0)) :
    phyProjRange (XR.fin vh) (XR.fin vv) (XR.fin x₀) (XR.fin y₀) = (0, XR.nan) := by
  have hg := g_pos
  unfold phyProjRange
  have e : (lit 0 : XR) = XR.fin 0 := by rw [XR.lit_eq]; norm_num
  have nn : ∀ x : XR, XR.nan - x = XR.nan := fun x => by cases x <;> rfl
  have an : ∀ x : ℝ, XR.fin x + XR.fin vh * XR.nan = XR.nan := fun x => rfl
  by_cases hd : vv ^ 2 + 2 * g * (y₀ - 0) < 0
  · simp only [e, (phy_proj_time_correct vv y₀ 0).rejects hd]
    unfold phyProjHorMotion
    simp only [an]
    have hl : CReal.lt (XR.nan) (lit 0 : XR) = false := rfl
    rw [if_neg (by rw [hl]; simp), nn]
  · rw [sub_zero] at hd
    obtain ⟨h1, h2⟩ := h.resolve_left hd
    obtain ⟨t, ht, hneg⟩ := proj_time_negative vv y₀ 0 h1 h2 (by nlinarith [not_lt.1 hd])
    simp only [e, ht, (phy_proj_hor_motion_correct vh t x₀).rejects hneg, nn]

example : phyProjRange (XR.fin 1) (XR.fin 1) (XR.fin 0) (XR.fin (-10)) = (0, XR.nan) :=
  proj_range_ignores_error 1 1 0 (-10) (Or.inl (by unfold g; norm_num))

/-- C76. Launch velocity and angle: `zsl_phy_proj_init_vel` splits it, `zsl_phy_proj_vel` and `zsl_phy_proj_angle` put it together. -/
theorem proj_init_vel_roundtrip (v θ : ℝ) (hv : 0 < v) (hθ : θ ∈ Set.Ioo (-(Real.pi / 2)) (Real.pi / 2)) :
    ∃ vh vv : ℝ, phyProjInitVel (XR.fin v) (XR.fin θ) = (0, XR.fin vh, XR.fin vv) ∧
      phyProjVel (XR.fin vh) (XR.fin vv) = (0, XR.fin v) ∧ phyProjAngle (XR.fin vh) (XR.fin vv) = (0, XR.fin θ) := by
  have hc : 0 < Real.cos θ := Real.cos_pos_of_mem_Ioo hθ
  refine ⟨v * Real.cos θ, v * Real.sin θ, by simp [phyProjInitVel], ?_, ?_⟩
  · rw [(phy_proj_vel_correct _ _).value id,
      show (v * Real.cos θ) ^ 2 + (v * Real.sin θ) ^ 2 = v ^ 2 * (Real.sin θ ^ 2 + Real.cos θ ^ 2) by ring,
      Real.sin_sq_add_cos_sq, mul_one, Real.sqrt_sq hv.le]
  · unfold phyProjAngle
    have hne : v * Real.cos θ ≠ 0 := by positivity
    rw [if_neg (by rw [XR.lit_eq, XR.fin_eq]; simpa using hne), XR.fin_div hne, XR.fin_atan,
      mul_div_mul_left _ _ hv.ne', ← Real.tan_eq_sin_div_cos, Real.arctan_tan hθ.1 hθ.2]

/-- C76, refuted: straight down is reported as straight up. -/
theorem proj_angle_vertical (vv : ℝ) : phyProjAngle (XR.fin 0) (XR.fin vv) = (0, XR.fin (π' / 2)) := by
  unfold phyProjAngle
  rw [if_pos (by simp), zslPi_eq, XR.lit_eq, XR.fin_div (by norm_num)]
  norm_num

/-! ### Temperatures -/

/-- C78. Celsius to Fahrenheit and back, and the reverse. -/
theorem thermo_fahren_cels_inverse (t : ℝ) :
    (∃ f : ℝ, phyThermoFahrenCels (XR.fin t) true = (0, XR.fin f) ∧ phyThermoFahrenCels (XR.fin f) false = (0, XR.fin t)) ∧
      ∃ c : ℝ, phyThermoFahrenCels (XR.fin t) false = (0, XR.fin c) ∧ phyThermoFahrenCels (XR.fin c) true = (0, XR.fin t) := by
  have h1 : ∀ t : ℝ, phyThermoFahrenCels (XR.fin t) true = (0, XR.fin (9 * t / 5 + 32)) := by
    intro t
    unfold phyThermoFahrenCels
    simp (disch := norm_num) [XR.fin_div]
  have h2 : ∀ t : ℝ, phyThermoFahrenCels (XR.fin t) false = (0, XR.fin ((t - 32) * 5 / 9)) := by
    intro t
    unfold phyThermoFahrenCels
    simp (disch := norm_num) [XR.fin_div]
  refine ⟨⟨_, h1 t, ?_⟩, ⟨_, h2 t, ?_⟩⟩
  · rw [h2]; congr 2; ring
  · rw [h1]; congr 2; ring

/-- C78. Fixed points of the scales, and strict monotony. -/
theorem thermo_fahren_cels_scale :
    phyThermoFahrenCels (XR.fin 0) true = (0, XR.fin 32) ∧ phyThermoFahrenCels (XR.fin 100) true = (0, XR.fin 212) ∧
      ∀ (s t : ℝ) (dir : Bool), s < t → ∃ u v : ℝ, phyThermoFahrenCels (XR.fin s) dir = (0, XR.fin u) ∧
        phyThermoFahrenCels (XR.fin t) dir = (0, XR.fin v) ∧ u < v := by
  have h1 : ∀ t : ℝ, phyThermoFahrenCels (XR.fin t) true = (0, XR.fin (9 * t / 5 + 32)) := by
    intro t
    unfold phyThermoFahrenCels
    simp (disch := norm_num) [XR.fin_div]
  have h2 : ∀ t : ℝ, phyThermoFahrenCels (XR.fin t) false = (0, XR.fin ((t - 32) * 5 / 9)) := by
    intro t
    unfold phyThermoFahrenCels
    simp (disch := norm_num) [XR.fin_div]
  refine ⟨by rw [h1]; norm_num, by rw [h1]; norm_num, fun s t dir hst => ?_⟩
  cases dir
  · exact ⟨_, _, h2 s, h2 t, by linarith⟩
  · exact ⟨_, _, h1 s, h1 t, by linarith⟩

/-- C78. Celsius and Kelvin: 273.15 apart, in both directions, and inverse. -/
theorem thermo_cels_kel_inverse (t : ℝ) :
    phyThermoCelsKel (XR.fin t) false = (0, XR.fin (t + 273.15)) ∧ phyThermoCelsKel (XR.fin t) true = (0, XR.fin (t - 273.15)) ∧
      phyThermoCelsKel (XR.fin (t + 273.15)) true = (0, XR.fin t) ∧
      phyThermoCelsKel (XR.fin (t - 273.15)) false = (0, XR.fin t) := by
  have h1 : ∀ t : ℝ, phyThermoCelsKel (XR.fin t) false = (0, XR.fin (t + 273.15)) := by
    intro t
    unfold phyThermoCelsKel
    simp
  have h2 : ∀ t : ℝ, phyThermoCelsKel (XR.fin t) true = (0, XR.fin (t - 273.15)) := by
    intro t
    unfold phyThermoCelsKel
    simp
  refine ⟨h1 t, h2 t, ?_, ?_⟩
  · rw [h2, add_sub_cancel_right]
  · rw [h1, sub_add_cancel]

end Verif
