import Verif.Props.Phys3
import Verif.Props.Phys4

/-!
# Laws of circuits, conservation, optics, gravitation, photons and rotation
-/

namespace Verif

open Out Phys

variable {n : ℕ}

/-! ### Components in series and in parallel -/

private theorem guardLoop (x : Fin n → ℝ) (t : List XR) (p : XR → Bool) (r : Int × XR) :
    forRet (vec x t).sz (fun j (_ : Unit) => do
      let a ← rd (vec x t).data j
      if p a then return Ctl.ret r else return Ctl.next ()) () =
      ok (if ∃ i, p (XR.fin (x i)) = true then Ctl.ret r else Ctl.next ()) := by
  rw [forRet_unit (fun j => if h : j < n then p (XR.fin (x ⟨j, h⟩)) else false) r]
  · congr 1
    refine if_congr ?_ rfl rfl
    simp only [List.any_eq_true, List.mem_range, vec_sz]
    constructor
    · rintro ⟨j, hj, h⟩
      rw [dif_pos hj] at h
      exact ⟨_, h⟩
    · rintro ⟨i, h⟩
      exact ⟨i.1, i.2, by simpa using h⟩
  · intro j hj
    rw [vec_sz] at hj
    rw [show rd (vec x t).data j = _ from (vec_is x t).rd ⟨j, hj⟩, ok_bind, dif_pos hj]
    split <;> rfl

private theorem sumLoop (x : Fin n → ℝ) (t : List XR) :
    forN (vec x t).sz (fun j r => do
      let a ← rd (vec x t).data j
      return (r + a)) (lit 0 : XR) = ok (XR.fin (∑ i, x i)) := by
  rw [show (lit 0 : XR) = XR.fin 0 by rw [XR.lit_eq, Rat.cast_zero], ← zero_add (∑ i, x i)]
  exact forN_sum x (fun i s => by rw [(vec_is x t).rd i, ok_bind, XR.fin_add]; rfl)

private theorem recipLoop (x : Fin n → ℝ) (t : List XR) (hx : ∀ i, x i ≠ 0) :
    forN (vec x t).sz (fun j r => do
      let a ← rd (vec x t).data j
      return (r + lit 1 / a)) (lit 0 : XR) = ok (XR.fin (∑ i, 1 / x i)) := by
  rw [show (lit 0 : XR) = XR.fin 0 by rw [XR.lit_eq, Rat.cast_zero], ← zero_add (∑ i, 1 / x i)]
  exact forN_sum (fun i => 1 / x i) (fun i s => by
    rw [(vec_is x t).rd i, ok_bind, XR.lit_eq, Rat.cast_one, XR.fin_div (hx i), XR.fin_add]; rfl)

private theorem gt_lit (x : ℝ) : CReal.lt (XR.fin x) (lit 0 : XR) = true ↔ x < 0 := by
  rw [XR.lit_eq]; simp

private theorem ge_lit (x : ℝ) : CReal.le (XR.fin x) (lit 0 : XR) = true ↔ x ≤ 0 := by
  rw [XR.lit_eq]; simp

/-- C77. Resistances in series: the sum; a negative one is refused. -/
theorem res_series_correct (x : Fin n → ℝ) (t : List XR) :
    ∃ o, phyElctyResSeries (vec x t) = ok o ∧ Guarded (∃ i, x i < 0) (∑ i, x i) o := by
  unfold phyElctyResSeries
  rw [guardLoop x t (fun a => CReal.lt a (lit 0)), ok_bind]
  simp only [gt_lit]
  by_cases h : ∃ i, x i < 0
  · rw [if_pos h]; exact ⟨_, rfl, Or.inl ⟨h, rfl⟩⟩
  · rw [if_neg h]
    simp only [sumLoop, ok_bind]
    exact ⟨_, rfl, Or.inr ⟨h, rfl⟩⟩

/-- C77. Capacitances in parallel: the sum; a negative one is refused. -/
theorem cap_parallel_correct (x : Fin n → ℝ) (t : List XR) :
    ∃ o, phyElctyCapParallel (vec x t) = ok o ∧ Guarded (∃ i, x i < 0) (∑ i, x i) o := by
  unfold phyElctyCapParallel
  rw [guardLoop x t (fun a => CReal.lt a (lit 0)), ok_bind]
  simp only [gt_lit]
  by_cases h : ∃ i, x i < 0
  · rw [if_pos h]; exact ⟨_, rfl, Or.inl ⟨h, rfl⟩⟩
  · rw [if_neg h]
    simp only [sumLoop, ok_bind]
    exact ⟨_, rfl, Or.inr ⟨h, rfl⟩⟩

private theorem recip_pos (x : Fin (n + 1) → ℝ) (h : ¬∃ i, x i ≤ 0) : 0 < ∑ i, 1 / x i := by
  push Not at h
  exact Finset.sum_pos (fun i _ => one_div_pos.2 (h i)) Finset.univ_nonempty

/-- C77. Resistances in parallel (at least one): the reciprocal of the sum of reciprocals; one that is not positive is refused. -/
theorem res_parallel_correct (x : Fin (n + 1) → ℝ) (t : List XR) :
    ∃ o, phyElctyResParallel (vec x t) = ok o ∧ Guarded (∃ i, x i ≤ 0) (1 / ∑ i, 1 / x i) o := by
  unfold phyElctyResParallel
  rw [guardLoop x t (fun a => CReal.le a (lit 0)), ok_bind]
  simp only [ge_lit]
  by_cases h : ∃ i, x i ≤ 0
  · rw [if_pos h]; exact ⟨_, rfl, Or.inl ⟨h, rfl⟩⟩
  · rw [if_neg h]
    have h0 : ∀ i, x i ≠ 0 := fun i hi => h ⟨i, hi.le⟩
    simp only [recipLoop x t h0, ok_bind]
    refine ⟨_, rfl, Or.inr ⟨h, ?_⟩⟩
    rw [XR.lit_eq, Rat.cast_one, XR.fin_div (recip_pos x h).ne']

/-- C77. Capacitances in series (at least one): the reciprocal of the sum of reciprocals; one that is not positive is refused. -/
theorem cap_series_correct (x : Fin (n + 1) → ℝ) (t : List XR) :
    ∃ o, phyElctyCapSeries (vec x t) = ok o ∧ Guarded (∃ i, x i ≤ 0) (1 / ∑ i, 1 / x i) o := by
  unfold phyElctyCapSeries
  rw [guardLoop x t (fun a => CReal.le a (lit 0)), ok_bind]
  simp only [ge_lit]
  by_cases h : ∃ i, x i ≤ 0
  · rw [if_pos h]; exact ⟨_, rfl, Or.inl ⟨h, rfl⟩⟩
  · rw [if_neg h]
    have h0 : ∀ i, x i ≠ 0 := fun i hi => h ⟨i, hi.le⟩
    simp only [recipLoop x t h0, ok_bind]
    refine ⟨_, rfl, Or.inr ⟨h, ?_⟩⟩
    rw [XR.lit_eq, Rat.cast_one, XR.fin_div (recip_pos x h).ne']

/-- C77. No resistors in parallel: infinite resistance (code 0); none in series: 0. -/
theorem res_empty (x : Fin 0 → ℝ) (t : List XR) :
    phyElctyResParallel (vec x t) = ok (0, XR.pinf) ∧ phyElctyCapSeries (vec x t) = ok (0, XR.pinf) ∧
      phyElctyResSeries (vec x t) = ok (0, XR.fin 0) ∧ phyElctyCapParallel (vec x t) = ok (0, XR.fin 0) := by
  have hd : (lit 1 / XR.fin 0 : XR) = XR.pinf := by
    rw [XR.lit_eq, Rat.cast_one, XR.fin_div_zero]; simp [XR.infOf]
  refine ⟨?_, ?_, ?_, ?_⟩
  · unfold phyElctyResParallel
    rw [guardLoop x t (fun a => CReal.le a (lit 0)), ok_bind, if_neg (by rintro ⟨i, -⟩; exact i.elim0)]
    simp only [recipLoop x t (fun i => i.elim0), ok_bind, Finset.univ_eq_empty, Finset.sum_empty, hd]
    rfl
  · unfold phyElctyCapSeries
    rw [guardLoop x t (fun a => CReal.le a (lit 0)), ok_bind, if_neg (by rintro ⟨i, -⟩; exact i.elim0)]
    simp only [recipLoop x t (fun i => i.elim0), ok_bind, Finset.univ_eq_empty, Finset.sum_empty, hd]
    rfl
  · obtain ⟨o, ho, hg⟩ := res_series_correct x t
    rw [ho, hg.value (by rintro ⟨i, -⟩; exact i.elim0)]; simp
  · obtain ⟨o, ho, hg⟩ := cap_parallel_correct x t
    rw [ho, hg.value (by rintro ⟨i, -⟩; exact i.elim0)]; simp

/-- C77. The parallel resistance is positive, at most every single resistance, and at most the series resistance. -/
theorem res_parallel_le (x : Fin (n + 1) → ℝ) (t : List XR) (hx : ∀ i, 0 < x i) :
    ∃ p s : ℝ, phyElctyResParallel (vec x t) = ok (0, XR.fin p) ∧ phyElctyResSeries (vec x t) = ok (0, XR.fin s) ∧
      0 < p ∧ (∀ i, p ≤ x i) ∧ (∀ i, x i ≤ s) ∧ p ≤ s := by
  have h : ¬∃ i, x i ≤ 0 := by push Not; exact hx
  obtain ⟨o, ho, hg⟩ := res_parallel_correct x t
  obtain ⟨o', ho', hg'⟩ := res_series_correct x t
  have hp := recip_pos x h
  have h1 : ∀ i, 1 / ∑ j, 1 / x j ≤ x i := by
    intro i
    rw [one_div_le hp (hx i)]
    exact Finset.single_le_sum (f := fun j => 1 / x j) (fun j _ => (one_div_pos.2 (hx j)).le) (Finset.mem_univ i)
  have h2 : ∀ i, x i ≤ ∑ j, x j := fun i =>
    Finset.single_le_sum (f := fun j => x j) (fun j _ => (hx j).le) (Finset.mem_univ i)
  refine ⟨_, _, by rw [ho, hg.value h], by rw [ho', hg'.value (by push Not; exact fun i => (hx i).le)], one_div_pos.2 hp, h1,
    h2, (h1 0).trans (h2 0)⟩

/-- C77. The order in which components are listed does not matter (here for all four, over any permutation). -/
theorem res_perm (x : Fin (n + 1) → ℝ) (t : List XR) (σ : Equiv.Perm (Fin (n + 1))) :
    phyElctyResSeries (vec (x ∘ σ) t) = phyElctyResSeries (vec x t) ∧
      phyElctyResParallel (vec (x ∘ σ) t) = phyElctyResParallel (vec x t) ∧
      phyElctyCapSeries (vec (x ∘ σ) t) = phyElctyCapSeries (vec x t) ∧
      phyElctyCapParallel (vec (x ∘ σ) t) = phyElctyCapParallel (vec x t) := by
  have key : ∀ (f : Vec XR → Out (Int × XR)) (b : ℝ → Prop) (v : (Fin (n + 1) → ℝ) → ℝ), v (x ∘ σ) = v x →
      (∀ y, ∃ o, f (vec y t) = ok o ∧ Guarded (∃ i, b (y i)) (v y) o) → f (vec (x ∘ σ) t) = f (vec x t) := by
    intro f b v hv hf
    obtain ⟨o, ho, hg⟩ := hf x
    obtain ⟨o', ho', hg'⟩ := hf (x ∘ σ)
    rw [ho, ho']
    have hb : (∃ i, b ((x ∘ σ) i)) ↔ ∃ i, b (x i) := by
      constructor
      · rintro ⟨i, h⟩; exact ⟨_, h⟩
      · rintro ⟨i, h⟩; exact ⟨σ.symm i, by simpa using h⟩
    by_cases h : ∃ i, b (x i)
    · rw [hg.rejects h, hg'.rejects (hb.2 h)]
    · rw [hg.value h, hg'.value (fun h' => h (hb.1 h')), hv]
  have hs : ∀ (f : ℝ → ℝ), ∑ i, f ((x ∘ σ) i) = ∑ i, f (x i) := fun f => Equiv.sum_comp σ (fun i => f (x i))
  refine ⟨?_, ?_, ?_, ?_⟩
  · exact key _ (· < 0) (fun y => ∑ i, y i) (hs id) fun y => res_series_correct y t
  · exact key _ (· ≤ 0) (fun y => 1 / ∑ i, 1 / y i) (by simp only [hs (fun r => 1 / r)]) fun y => res_parallel_correct y t
  · exact key _ (· ≤ 0) (fun y => 1 / ∑ i, 1 / y i) (by simp only [hs (fun r => 1 / r)]) fun y => cap_series_correct y t
  · exact key _ (· < 0) (fun y => ∑ i, y i) (hs id) fun y => cap_parallel_correct y t

example : ∃ p s : ℝ, phyElctyResParallel (vec ![2, 3] []) = ok (0, XR.fin p) ∧
    phyElctyResSeries (vec ![2, 3] []) = ok (0, XR.fin s) ∧ 0 < p ∧ p ≤ s := by
  obtain ⟨p, s, h1, h2, h3, -, -, h4⟩ := res_parallel_le ![2, 3] [] (by intro i; fin_cases i <;> simp)
  exact ⟨p, s, h1, h2, h3, h4⟩

/-! ### Charging and discharging -/

/-- C88. Charge while charging plus charge while discharging is the full charge; both lie between 0 and it. -/
theorem rc_complementary (r c t q₀ : ℝ) (h : 0 < r * c) (hq : 0 ≤ q₀) (ht : 0 ≤ t) :
    ∃ a b : ℝ, phyEcmpRcChargQ (XR.fin r) (XR.fin c) (XR.fin t) (XR.fin q₀) = (0, XR.fin a) ∧
      phyEcmpRcDischargQ (XR.fin r) (XR.fin c) (XR.fin t) (XR.fin q₀) = (0, XR.fin b) ∧ a + b = q₀ ∧
      0 ≤ a ∧ a ≤ q₀ ∧ 0 ≤ b ∧ b ≤ q₀ := by
  have hb : ¬(r * c ≤ 0 ∨ q₀ < 0 ∨ t < 0) := by
    rw [not_or, not_or]; exact ⟨not_le.2 h, not_lt.2 hq, not_lt.2 ht⟩
  have e0 := Real.exp_pos (-(t / (r * c)))
  have e1 : Real.exp (-(t / (r * c))) ≤ 1 := Real.exp_le_one_iff.2 (by have := div_nonneg ht h.le; linarith)
  refine ⟨_, _, (phy_ecmp_rc_charg_q_correct r c t q₀).value hb, (phy_ecmp_rc_discharg_q_correct r c t q₀).value hb, by ring, ?_,
    ?_, ?_, ?_⟩
  · exact mul_nonneg hq (by linarith)
  · nlinarith
  · positivity
  · nlinarith

/-- C88. While charging the charge grows with time and the current falls. -/
theorem rc_charge_monotone (r c s t q₀ : ℝ) (h : 0 < r * c) (hq : 0 < q₀) (hs : 0 ≤ s) (hst : s < t) :
    ∃ a b i j : ℝ, phyEcmpRcChargQ (XR.fin r) (XR.fin c) (XR.fin s) (XR.fin q₀) = (0, XR.fin a) ∧
      phyEcmpRcChargQ (XR.fin r) (XR.fin c) (XR.fin t) (XR.fin q₀) = (0, XR.fin b) ∧ a < b ∧
      phyEcmpRcChargI (XR.fin r) (XR.fin c) (XR.fin s) (XR.fin q₀) = (0, XR.fin i) ∧
      phyEcmpRcChargI (XR.fin r) (XR.fin c) (XR.fin t) (XR.fin q₀) = (0, XR.fin j) ∧ j < i ∧ 0 < j ∧ i ≤ q₀ := by
  have hb : ¬(r * c ≤ 0 ∨ q₀ < 0 ∨ s < 0) := by
    rw [not_or, not_or]; exact ⟨not_le.2 h, not_lt.2 hq.le, not_lt.2 hs⟩
  have hb' : ¬(r * c ≤ 0 ∨ q₀ < 0 ∨ t < 0) := by
    rw [not_or, not_or]; exact ⟨not_le.2 h, not_lt.2 hq.le, not_lt.2 (hs.trans hst.le)⟩
  have e : Real.exp (-(t / (r * c))) < Real.exp (-(s / (r * c))) :=
    Real.exp_lt_exp.2 (neg_lt_neg (div_lt_div_of_pos_right hst h))
  have e1 : Real.exp (-(s / (r * c))) ≤ 1 := Real.exp_le_one_iff.2 (by have := div_nonneg hs h.le; linarith)
  have e0 := Real.exp_pos (-(t / (r * c)))
  refine ⟨_, _, _, _, (phy_ecmp_rc_charg_q_correct r c s q₀).value hb, (phy_ecmp_rc_charg_q_correct r c t q₀).value hb', ?_,
    (phy_ecmp_rc_charg_i_correct r c s q₀).value hb, (phy_ecmp_rc_charg_i_correct r c t q₀).value hb', ?_, by positivity, ?_⟩
  · nlinarith
  · nlinarith
  · nlinarith

/-- C88. The discharging current is the negative of the charging current. -/
theorem rc_current_opposite (r c t i₀ : ℝ) (h : 0 < r * c) (hi : 0 ≤ i₀) (ht : 0 ≤ t) :
    ∃ a : ℝ, phyEcmpRcChargI (XR.fin r) (XR.fin c) (XR.fin t) (XR.fin i₀) = (0, XR.fin a) ∧
      phyEcmpRcDischargI (XR.fin r) (XR.fin c) (XR.fin t) (XR.fin i₀) = (0, XR.fin (-a)) := by
  have hb : ¬(r * c ≤ 0 ∨ i₀ < 0 ∨ t < 0) := by
    rw [not_or, not_or]; exact ⟨not_le.2 h, not_lt.2 hi, not_lt.2 ht⟩
  exact ⟨_, (phy_ecmp_rc_charg_i_correct r c t i₀).value hb, (phy_ecmp_rc_discharg_i_correct r c t i₀).value hb⟩

/-- C88. Discharging for `s` and then for `t` more is discharging for `s + t`. -/
theorem rc_discharge_split (r c s t q₀ : ℝ) (h : 0 < r * c) (hq : 0 ≤ q₀) (hs : 0 ≤ s) (ht : 0 ≤ t) :
    ∃ a : ℝ, phyEcmpRcDischargQ (XR.fin r) (XR.fin c) (XR.fin s) (XR.fin q₀) = (0, XR.fin a) ∧
      phyEcmpRcDischargQ (XR.fin r) (XR.fin c) (XR.fin t) (XR.fin a) =
        phyEcmpRcDischargQ (XR.fin r) (XR.fin c) (XR.fin (s + t)) (XR.fin q₀) := by
  have dom : ∀ q u : ℝ, 0 ≤ q → 0 ≤ u → ¬(r * c ≤ 0 ∨ q < 0 ∨ u < 0) := fun q u hq hu => by
    rw [not_or, not_or]; exact ⟨not_le.2 h, not_lt.2 hq, not_lt.2 hu⟩
  refine ⟨_, (phy_ecmp_rc_discharg_q_correct r c s q₀).value (dom _ _ hq hs), ?_⟩
  rw [(phy_ecmp_rc_discharg_q_correct r c t _).value (dom _ _ (by positivity) ht),
    (phy_ecmp_rc_discharg_q_correct r c (s + t) q₀).value (dom _ _ hq (by positivity)), mul_assoc, ← Real.exp_add]
  congr 4
  ring

/-- C88. The current of an RL circuit stays between 0 and its limit and grows with time. -/
theorem rl_current_monotone (r l s t i₀ : ℝ) (hr : 0 < r) (hl : 0 < l) (hi : 0 < i₀) (hs : 0 ≤ s) (hst : s < t) :
    ∃ a b : ℝ, phyEcmpRlCurrent (XR.fin r) (XR.fin l) (XR.fin s) (XR.fin i₀) = (0, XR.fin a) ∧
      phyEcmpRlCurrent (XR.fin r) (XR.fin l) (XR.fin t) (XR.fin i₀) = (0, XR.fin b) ∧ 0 ≤ a ∧ a < b ∧ b < i₀ := by
  have dom : ∀ u : ℝ, 0 ≤ u → ¬(l ≤ 0 ∨ i₀ < 0 ∨ u < 0 ∨ r < 0) := fun u hu => by
    rw [not_or, not_or, not_or]; exact ⟨not_le.2 hl, not_lt.2 hi.le, not_lt.2 hu, not_lt.2 hr.le⟩
  have hp : 0 < r / l := div_pos hr hl
  have e : Real.exp (-(r / l * t)) < Real.exp (-(r / l * s)) := Real.exp_lt_exp.2 (by nlinarith)
  have e1 : Real.exp (-(r / l * s)) ≤ 1 := Real.exp_le_one_iff.2 (by nlinarith)
  have e0 := Real.exp_pos (-(r / l * t))
  refine ⟨_, _, (phy_ecmp_rl_current_correct r l s i₀).value (dom s hs),
    (phy_ecmp_rl_current_correct r l t i₀).value (dom t (hs.trans hst.le)), ?_, ?_, ?_⟩ <;> nlinarith

example : ∃ a b : ℝ, phyEcmpRcChargQ (XR.fin 2) (XR.fin 3) (XR.fin 1) (XR.fin 5) = (0, XR.fin a) ∧
    phyEcmpRcDischargQ (XR.fin 2) (XR.fin 3) (XR.fin 1) (XR.fin 5) = (0, XR.fin b) ∧ a + b = 5 := by
  obtain ⟨a, b, h1, h2, h3, -⟩ := rc_complementary 2 3 1 5 (by norm_num) (by norm_num) (by norm_num)
  exact ⟨a, b, h1, h2, h3⟩

/-! ### Conservation laws -/

/-- C89. The pressure `zsl_phy_fluid_bernoulli` returns keeps `p + ρ v² / 2` (in kilopascals), and it inverts itself when the
pressure is not negative. -/
theorem bernoulli_conserves (d v₁ p₁ v₂ : ℝ) (hd : 0 ≤ d) (h1 : 0 ≤ v₁) (h2 : 0 ≤ v₂) (hp : 0 ≤ p₁) :
    ∃ p₂ : ℝ, phyFluidBernoulli (XR.fin d) (XR.fin v₁) (XR.fin p₁) (XR.fin v₂) = (0, XR.fin p₂) ∧
      p₁ + d * v₁ ^ 2 / 2000 = p₂ + d * v₂ ^ 2 / 2000 ∧
      (0 ≤ p₂ → phyFluidBernoulli (XR.fin d) (XR.fin v₂) (XR.fin p₂) (XR.fin v₁) = (0, XR.fin p₁)) := by
  have dom : ∀ v p w : ℝ, 0 ≤ v → 0 ≤ p → 0 ≤ w → ¬(v < 0 ∨ w < 0 ∨ p < 0 ∨ d < 0) := fun v p w a b c => by
    rw [not_or, not_or, not_or]; exact ⟨not_lt.2 a, not_lt.2 c, not_lt.2 b, not_lt.2 hd⟩
  refine ⟨_, (phy_fluid_bernoulli_correct d v₁ p₁ v₂).value (dom _ _ _ h1 hp h2), by ring, fun h => ?_⟩
  rw [(phy_fluid_bernoulli_correct d v₂ _ v₁).value (dom _ _ _ h2 h h1)]
  congr 2
  ring

/-- C89. The volume flow is the same at both cross-sections. -/
theorem flow_conserves (a₁ v₁ a₂ : ℝ) (h1 : 0 ≤ a₁) (hv : 0 ≤ v₁) (h2 : 0 < a₂) :
    ∃ v₂ : ℝ, phyFluidFlowRate (XR.fin a₁) (XR.fin v₁) (XR.fin a₂) = (0, XR.fin v₂) ∧
      phyFluidVolumeFlowRate (XR.fin v₁) (XR.fin a₁) = phyFluidVolumeFlowRate (XR.fin v₂) (XR.fin a₂) := by
  refine ⟨_, (phy_fluid_flow_rate_correct a₁ v₁ a₂).value (by
    rw [not_or, not_or]; exact ⟨not_lt.2 hv, not_lt.2 h1, not_le.2 h2⟩), ?_⟩
  rw [(phy_fluid_volume_flow_rate_correct v₁ a₁).value (by rw [not_or]; exact ⟨not_lt.2 hv, not_lt.2 h1⟩),
    (phy_fluid_volume_flow_rate_correct _ a₂).value (by
      rw [not_or]; exact ⟨not_lt.2 (div_nonneg (mul_nonneg h1 hv) h2.le), not_lt.2 h2.le⟩)]
  congr 2
  field_simp

/-- C89. A hydraulic press has the same pressure on both sides. -/
theorem pascal_conserves (a₁ f₁ a₂ : ℝ) (h1 : 0 < a₁) (hf : 0 ≤ f₁) (h2 : 0 < a₂) :
    ∃ f₂ : ℝ, phyFluidForceProp (XR.fin a₁) (XR.fin f₁) (XR.fin a₂) = (0, XR.fin f₂) ∧
      phyFluidSimplePress (XR.fin f₁) (XR.fin a₁) = phyFluidSimplePress (XR.fin f₂) (XR.fin a₂) := by
  refine ⟨_, (phy_fluid_force_prop_correct a₁ f₁ a₂).value (by
    rw [not_or, not_or]; exact ⟨not_lt.2 hf, not_lt.2 h2.le, not_le.2 h1⟩), ?_⟩
  rw [(phy_fluid_simple_press_correct f₁ a₁).value (by rw [not_or]; exact ⟨not_lt.2 hf, not_le.2 h1⟩),
    (phy_fluid_simple_press_correct _ a₂).value (by
      rw [not_or]; exact ⟨not_lt.2 (by positivity), not_le.2 h2⟩)]
  congr 2
  field_simp

/-- C89. Boyle's law agrees with the ideal gas: at constant amount and temperature, the volume it gives for another pressure
has that pressure. -/
theorem boyle_ideal_gas (v₁ m t p₂ : ℝ) (hv : 0 < v₁) (hm : 0 < m) (ht : 0 < t) (hp : 0 < p₂) :
    ∃ p₁ v₂ : ℝ, phyGasPress (XR.fin v₁) (XR.fin m) (XR.fin t) = (0, XR.fin p₁) ∧
      phyGasBoyle (XR.fin p₁) (XR.fin v₁) (XR.fin p₂) = (0, XR.fin v₂) ∧
      phyGasPress (XR.fin v₂) (XR.fin m) (XR.fin t) = (0, XR.fin p₂) := by
  have hR := Rgas_pos
  have dom : ∀ v : ℝ, 0 < v → ¬(v ≤ 0 ∨ m < 0 ∨ t < 0) := fun v h => by
    rw [not_or, not_or]; exact ⟨not_le.2 h, not_lt.2 hm.le, not_lt.2 ht.le⟩
  refine ⟨_, _, (phy_gas_press_correct v₁ m t).value (dom _ hv), (phy_gas_boyle_correct _ v₁ p₂).value (by
    rw [not_or, not_or]; exact ⟨not_le.2 hp, not_lt.2 hv.le, not_lt.2 (by positivity)⟩), ?_⟩
  rw [(phy_gas_press_correct _ m t).value (dom _ (by positivity))]
  congr 2
  field_simp

/-- C89. Charles's law agrees with the ideal gas: at constant amount, the volume for another temperature has the same pressure. -/
theorem charles_ideal_gas (v₁ m t₁ t₂ : ℝ) (hv : 0 < v₁) (hm : 0 ≤ m) (h1 : 0 < t₁) (h2 : 0 < t₂) :
    ∃ v₂ : ℝ, phyGasCharlesLussac (XR.fin t₁) (XR.fin v₁) (XR.fin t₂) = (0, XR.fin v₂) ∧
      phyGasPress (XR.fin v₂) (XR.fin m) (XR.fin t₂) = phyGasPress (XR.fin v₁) (XR.fin m) (XR.fin t₁) := by
  refine ⟨_, (phy_gas_charles_lussac_correct t₁ v₁ t₂).value (by
    rw [not_or, not_or]; exact ⟨not_le.2 h1, not_lt.2 hv.le, not_lt.2 h2.le⟩), ?_⟩
  rw [(phy_gas_press_correct v₁ m t₁).value (by rw [not_or, not_or]; exact ⟨not_le.2 hv, not_lt.2 hm, not_lt.2 h1.le⟩),
    (phy_gas_press_correct _ m t₂).value (by
      rw [not_or, not_or]; exact ⟨not_le.2 (by positivity), not_lt.2 hm, not_lt.2 h2.le⟩)]
  congr 2
  field_simp

/-- C89. Energy: the fourth energy `zsl_phy_ener_final` returns makes the final sum equal the initial one. -/
theorem ener_final_conserves (a₁ a₂ a₃ a₄ b₁ b₂ b₃ : ℝ) :
    ∃ b₄ : ℝ, phyEnerFinal (XR.fin a₁) (XR.fin a₂) (XR.fin a₃) (XR.fin a₄) (XR.fin b₁) (XR.fin b₂) (XR.fin b₃) =
        (0, XR.fin b₄) ∧
      phyEnerMec (XR.fin a₁) (XR.fin a₂) (XR.fin a₃) (XR.fin a₄) = phyEnerMec (XR.fin b₁) (XR.fin b₂) (XR.fin b₃) (XR.fin b₄) := by
  refine ⟨_, (phy_ener_final_correct _ _ _ _ _ _ _).value id, ?_⟩
  rw [(phy_ener_mec_correct _ _ _ _).value id, (phy_ener_mec_correct _ _ _ _).value id]
  congr 2
  ring

/-- C89. A falling body: the kinetic energy gained is the potential energy lost. -/
theorem fall_conserves (m y₀ v t : ℝ) (hm : 0 ≤ m) (ht : 0 ≤ t) :
    ∃ y w k₁ k₂ u₁ u₂ : ℝ, phyProjVerMotion (XR.fin v) (XR.fin t) (XR.fin y₀) = (0, XR.fin y) ∧
      phyProjVerVel (XR.fin v) (XR.fin t) = (0, XR.fin w) ∧ phyEnerKin (XR.fin v) (XR.fin m) = (0, XR.fin k₁) ∧
      phyEnerKin (XR.fin w) (XR.fin m) = (0, XR.fin k₂) ∧ phyEnerGravPot (XR.fin m) (XR.fin y₀) = (0, XR.fin u₁) ∧
      phyEnerGravPot (XR.fin m) (XR.fin y) = (0, XR.fin u₂) ∧ k₁ + u₁ = k₂ + u₂ := by
  have h1 := not_lt.2 hm
  have h2 := not_lt.2 ht
  refine ⟨_, _, _, _, _, _, (phy_proj_ver_motion_correct v t y₀).value h2, (phy_proj_ver_vel_correct v t).value h2,
    (phy_ener_kin_correct v m).value h1, (phy_ener_kin_correct _ m).value h1, (phy_ener_grav_pot_correct m y₀).value h1,
    (phy_ener_grav_pot_correct m _).value h1, ?_⟩
  ring

/-- C89. A lever balances: force times distance is equal on both arms. -/
theorem lever_balances (d₁ f₁ d₂ : ℝ) (h1 : 0 ≤ d₁) (h2 : 0 < d₂) :
    ∃ f₂ : ℝ, phyDynLever (XR.fin d₁) (XR.fin f₁) (XR.fin d₂) = (0, XR.fin f₂) ∧ f₁ * d₁ = f₂ * d₂ := by
  refine ⟨_, (phy_dyn_lever_correct d₁ f₁ d₂).value (by rw [not_or]; exact ⟨not_lt.2 h1, not_le.2 h2⟩), ?_⟩
  field_simp

/-- C89. The three formulas for electric power agree through Ohm's law. -/
theorem power_agree (i r : ℝ) (hr : 0 < r) :
    ∃ v p : ℝ, phyElctyOhmLaw (XR.fin i) (XR.fin r) = (0, XR.fin v) ∧ phyElctyPowerVi (XR.fin v) (XR.fin i) = (0, XR.fin p) ∧
      phyElctyPowerIr (XR.fin i) (XR.fin r) = (0, XR.fin p) ∧ phyElctyPowerVr (XR.fin v) (XR.fin r) = (0, XR.fin p) ∧ 0 ≤ p := by
  refine ⟨_, _, (phy_elcty_ohm_law_correct i r).value (not_lt.2 hr.le), (phy_elcty_power_vi_correct _ i).value id, ?_, ?_, ?_⟩
  · rw [(phy_elcty_power_ir_correct i r).value (not_lt.2 hr.le)]; congr 2; ring
  · rw [(phy_elcty_power_vr_correct _ r).value (not_le.2 hr)]; congr 2; field_simp
  · nlinarith [mul_nonneg hr.le (mul_self_nonneg i)]

example : ∃ p₂ : ℝ, phyFluidBernoulli (XR.fin 1000) (XR.fin 2) (XR.fin 100) (XR.fin 1) = (0, XR.fin p₂) ∧
    (100 : ℝ) + 1000 * 2 ^ 2 / 2000 = p₂ + 1000 * 1 ^ 2 / 2000 := by
  obtain ⟨p, h, e, -⟩ := bernoulli_conserves 1000 2 100 1 (by norm_num) (by norm_num) (by norm_num) (by norm_num)
  exact ⟨p, h, e⟩

/-! ### Optics -/

/-- C90. Snell's law is reversible: light sent back along the refracted ray leaves along the incident ray. -/
theorem snell_reversible (n₁ n₂ θ : ℝ) (h1 : 0 < n₁) (h2 : 0 < n₂) (hθ : θ ∈ Set.Icc (-(Real.pi / 2)) (Real.pi / 2))
    (hs : |n₁ * Real.sin θ / n₂| ≤ 1) :
    ∃ φ : ℝ, phyOptSnell (XR.fin n₁) (XR.fin n₂) (XR.fin θ) = (0, XR.fin φ) ∧ n₁ * Real.sin θ = n₂ * Real.sin φ ∧
      φ ∈ Set.Icc (-(Real.pi / 2)) (Real.pi / 2) ∧ phyOptSnell (XR.fin n₂) (XR.fin n₁) (XR.fin φ) = (0, XR.fin θ) := by
  have hsin : Real.sin (Real.arcsin (n₁ * Real.sin θ / n₂)) = n₁ * Real.sin θ / n₂ :=
    Real.sin_arcsin (abs_le.1 hs).1 (abs_le.1 hs).2
  have e : n₂ * Real.sin (Real.arcsin (n₁ * Real.sin θ / n₂)) / n₁ = Real.sin θ := by rw [hsin]; field_simp
  refine ⟨_, (phy_opt_snell_correct n₁ n₂ θ).value (by
    rw [not_or, not_or]; exact ⟨not_lt.2 h1.le, not_le.2 h2, not_lt.2 hs⟩), ?_, Real.arcsin_mem_Icc _, ?_⟩
  · rw [hsin]; field_simp
  · rw [(phy_opt_snell_correct n₂ n₁ _).value (by
      rw [not_or, not_or, e]; exact ⟨not_lt.2 h2.le, not_le.2 h1, not_lt.2 (Real.abs_sin_le_one θ)⟩), e,
      Real.arcsin_sin hθ.1 hθ.2]

/-- C90. Total reflection: from the dense medium, an angle between 0 and 90 degrees is refracted exactly when it is not beyond the
critical angle, and at the critical angle the refracted ray grazes the surface. -/
theorem critical_angle_correct (n₁ n₂ : ℝ) (h1 : 0 < n₁) (h2 : 0 < n₂) (h : n₂ ≤ n₁) :
    ∃ α : ℝ, phyOptCriticAngle (XR.fin n₁) (XR.fin n₂) = (0, XR.fin α) ∧ 0 ≤ α ∧ α ≤ Real.pi / 2 ∧
      phyOptSnell (XR.fin n₁) (XR.fin n₂) (XR.fin α) = (0, XR.fin (Real.pi / 2)) ∧
      ∀ θ, 0 ≤ θ → θ ≤ Real.pi / 2 → ((phyOptSnell (XR.fin n₁) (XR.fin n₂) (XR.fin θ)).1 = 0 ↔ θ ≤ α) := by
  have hq : n₂ / n₁ ≤ 1 := (div_le_one h1).2 h
  have hq0 : 0 < n₂ / n₁ := div_pos h2 h1
  have hsin : Real.sin (Real.arcsin (n₂ / n₁)) = n₂ / n₁ := Real.sin_arcsin (by linarith) hq
  have e : n₁ * Real.sin (Real.arcsin (n₂ / n₁)) / n₂ = 1 := by rw [hsin]; field_simp
  refine ⟨_, (phy_opt_critic_angle_correct n₁ n₂).value (by
    rw [not_or, not_or]; exact ⟨not_le.2 h1, not_lt.2 h2.le, not_lt.2 h⟩), Real.arcsin_nonneg.2 hq0.le,
    (Real.arcsin_mem_Icc _).2, ?_, fun θ h0 hle => ?_⟩
  · rw [(phy_opt_snell_correct n₁ n₂ _).value (by
      rw [not_or, not_or, e]; exact ⟨not_lt.2 h1.le, not_le.2 h2, by simp⟩), e, Real.arcsin_one]
  · have hs0 : 0 ≤ Real.sin θ := Real.sin_nonneg_of_nonneg_of_le_pi h0 (by linarith [Real.pi_pos])
    have key : (1 < |n₁ * Real.sin θ / n₂|) ↔ ¬θ ≤ Real.arcsin (n₂ / n₁) := by
      rw [abs_of_nonneg (by positivity), lt_div_iff₀ h2, one_mul, Real.le_arcsin_iff_sin_le' ⟨by linarith [Real.pi_pos], hle⟩,
        le_div_iff₀ h1, not_le, mul_comm]
    constructor
    · intro hc
      by_contra hn
      rw [(phy_opt_snell_correct n₁ n₂ θ).rejects (Or.inr (Or.inr (key.2 hn)))] at hc
      exact absurd hc (by decide)
    · intro hle
      rw [(phy_opt_snell_correct n₁ n₂ θ).value (by
        rw [not_or, not_or, key, not_not]; exact ⟨not_lt.2 h1.le, not_le.2 h2, hle⟩)]

/-- C90. The mirror equation: the focal length's reciprocal is the sum of the distances' reciprocals; and the power is that sum. -/
theorem mirror_equation (a b : ℝ) (ha : a ≠ 0) (hb : b ≠ 0) (h : a + b ≠ 0) :
    ∃ f : ℝ, phyOptFocus (XR.fin a) (XR.fin b) = (0, XR.fin f) ∧ 1 / f = 1 / a + 1 / b ∧
      phyOptPower (XR.fin f) = (0, XR.fin (1 / a + 1 / b)) := by
  have e : 1 / (a * b / (a + b)) = 1 / a + 1 / b := by field_simp; ring
  refine ⟨_, (phy_opt_focus_correct a b).value h, e, ?_⟩
  rw [(phy_opt_power_correct _).value (by positivity), e]

example : ∃ φ : ℝ, phyOptSnell (XR.fin 1) (XR.fin 2) (XR.fin (Real.pi / 2)) = (0, XR.fin φ) ∧
    phyOptSnell (XR.fin 2) (XR.fin 1) (XR.fin φ) = (0, XR.fin (Real.pi / 2)) := by
  obtain ⟨φ, h1, -, -, h2⟩ := snell_reversible 1 2 (Real.pi / 2) (by norm_num) (by norm_num)
    ⟨by linarith [Real.pi_pos], le_rfl⟩ (by norm_num)
  exact ⟨φ, h1, h2⟩

/-! ### Inverse square laws -/

/-- C91. Gravitation: symmetric in the masses, attractive, the force is mass times acceleration, and quarters at double distance. -/
theorem grav_laws (m₁ m₂ r : ℝ) (h1 : 0 < m₁) (h2 : 0 < m₂) (hr : 0 < r) :
    ∃ f a : ℝ, phyGravForce (XR.fin m₁) (XR.fin m₂) (XR.fin r) = (0, XR.fin f) ∧
      phyGravForce (XR.fin m₂) (XR.fin m₁) (XR.fin r) = (0, XR.fin f) ∧ f < 0 ∧
      phyGravAcc (XR.fin m₁) (XR.fin r) = (0, XR.fin a) ∧ f = m₂ * a ∧
      phyGravForce (XR.fin m₁) (XR.fin m₂) (XR.fin (2 * r)) = (0, XR.fin (f / 4)) := by
  have hG := G_pos
  refine ⟨_, _, (phy_grav_force_correct m₁ m₂ r).value hr.ne', ?_, ?_, (phy_grav_acc_correct m₁ r).value hr.ne', by ring, ?_⟩
  · rw [(phy_grav_force_correct m₂ m₁ r).value hr.ne']; congr 2; ring
  · exact neg_lt_zero.2 (by positivity)
  · rw [(phy_grav_force_correct m₁ m₂ (2 * r)).value (by positivity)]; congr 2; field_simp; ring

/-- C91. Coulomb: symmetric, equals charge times field, like charges repel, potential energy is charge times potential. -/
theorem coulomb_laws (q₁ q₂ r : ℝ) (hr : 0 < r) :
    ∃ f e p u : ℝ, phyElecForce (XR.fin q₁) (XR.fin q₂) (XR.fin r) = (0, XR.fin f) ∧
      phyElecForce (XR.fin q₂) (XR.fin q₁) (XR.fin r) = (0, XR.fin f) ∧
      phyElecField (XR.fin q₁) (XR.fin r) = (0, XR.fin e) ∧ phyElecForce2 (XR.fin q₂) (XR.fin e) = (0, XR.fin f) ∧
      (0 < q₁ * q₂ → 0 < f) ∧ (q₁ * q₂ < 0 → f < 0) ∧
      phyElecPotential (XR.fin q₁) (XR.fin r) = (0, XR.fin p) ∧
      phyElecPotEner (XR.fin q₁) (XR.fin q₂) (XR.fin r) = (0, XR.fin u) ∧ u = q₂ * p ∧ u = f * r ∧
      phyElecForce (XR.fin q₁) (XR.fin q₂) (XR.fin (2 * r)) = (0, XR.fin (f / 4)) := by
  have hk := k_pos
  refine ⟨_, _, _, _, (phy_elec_force_correct q₁ q₂ r).value (not_le.2 hr), ?_, (phy_elec_field_correct q₁ r).value (not_le.2 hr),
    ?_, fun h => ?_, fun h => ?_, (phy_elec_potential_correct q₁ r).value (not_le.2 hr),
    (phy_elec_pot_ener_correct q₁ q₂ r).value (not_le.2 hr), by ring, ?_, ?_⟩
  · rw [(phy_elec_force_correct q₂ q₁ r).value (not_le.2 hr)]; congr 2; ring
  · rw [(phy_elec_force2_correct q₂ _).value id]; congr 2; ring
  · rw [mul_assoc]; positivity
  · rw [mul_assoc]; exact div_neg_of_neg_of_pos (mul_neg_of_pos_of_neg hk h) (by positivity)
  · field_simp
  · rw [(phy_elec_force_correct q₁ q₂ (2 * r)).value (not_le.2 (by positivity))]; congr 2; field_simp; ring

/-- C91. Escape velocity is `√2` times the velocity on a circular orbit of the same radius; a circular orbit at that velocity
takes Kepler's period (with the library's π); the centripetal acceleration on it is the gravitational one. -/
theorem orbit_laws (m r : ℝ) (hm : 0 < m) (hr : 0 < r) :
    ∃ v w T a : ℝ, phyGravOrbVel (XR.fin m) (XR.fin r) = (0, XR.fin v) ∧ phyGravEscVel (XR.fin m) (XR.fin r) = (0, XR.fin w) ∧
      w ^ 2 = 2 * v ^ 2 ∧ phyGravOrbPeriod (XR.fin m) (XR.fin 0) (XR.fin r) = (0, XR.fin T) ∧ v * T = 2 * π' * r ∧
      phyRotCentAccel (XR.fin v) (XR.fin r) = (0, XR.fin a) ∧ phyGravAcc (XR.fin m) (XR.fin r) = (0, XR.fin (-a)) := by
  have hG := G_pos
  have hv : Real.sqrt (G * m / r) ^ 2 = G * m / r := Real.sq_sqrt (by positivity)
  refine ⟨_, _, _, _, (phy_grav_orb_vel_partial m r hm.le hr.le).value hr.ne',
    (phy_grav_esc_vel_partial m r hm.le hr.le).value hr.ne', ?_,
    (phy_grav_orb_period_partial m 0 r (by linarith) hr.le).value (by linarith), ?_,
    (phy_rot_cent_accel_correct _ r).value (not_le.2 hr), ?_⟩
  · rw [hv, Real.sq_sqrt (by positivity)]; ring
  · rw [mul_comm, mul_assoc, ← Real.sqrt_mul (by positivity), add_zero,
      show r ^ 3 / (G * m) * (G * m / r) = r ^ 2 by field_simp, Real.sqrt_sq hr.le]
  · rw [(phy_grav_acc_correct m r).value hr.ne', hv]; congr 3; field_simp

/-! ### Photons -/

/-- C92. The photon helpers of the two modules agree: the energy from a wavelength in metres, from one in nanometres, and from the
frequency of that wavelength; wavelength and frequency invert each other. -/
theorem photon_consistent (lam : ℝ) (hl : 0 < lam) :
    ∃ f E : ℝ, phyPhotonFrequency (XR.fin lam) = (0, XR.fin f) ∧ phyPhotonWavelength (XR.fin f) = (0, XR.fin lam) ∧
      phyPhotonEner (XR.fin lam) = (0, XR.fin E) ∧ phyEnerPhoton (XR.fin f) = (0, XR.fin E) ∧
      phyEnerPhoton2 (XR.fin (lam * 1e9)) = (0, XR.fin E) ∧ 0 < E := by
  have hc := c_pos
  have hh := h_pos
  have he := e_pos
  refine ⟨_, _, (phy_photon_frequency_correct lam).value (not_le.2 hl), ?_, (phy_photon_ener_correct lam).value (not_le.2 hl), ?_,
    ?_, by positivity⟩
  · rw [(phy_photon_wavelength_correct _).value (not_le.2 (by positivity))]; congr 2; field_simp
  · rw [(phy_ener_photon_correct _).value (not_lt.2 (by positivity))]; congr 2; ring
  · rw [(phy_ener_photon2_correct _).value (not_le.2 (by positivity)), mul_assoc lam]; norm_num

/-- C92. The photoelectric energy is the photon energy minus the work function, and so vanishes at the threshold. -/
theorem photoelectric_threshold (f w : ℝ) (hf : 0 ≤ f) (hw : 0 ≤ w) :
    ∃ E : ℝ, phyEnerPhoton (XR.fin f) = (0, XR.fin E) ∧ phyPhotonPhotoelectric (XR.fin f) (XR.fin w) = (0, XR.fin (E - w)) :=
  ⟨_, (phy_ener_photon_correct f).value (not_lt.2 hf),
    (phy_photon_photoelectric_correct f w).value (by rw [not_or]; exact ⟨not_lt.2 hf, not_lt.2 hw⟩)⟩

/-! ### Rotation -/

/-- C93. Period and frequency are reciprocal; one turn takes one period; the two centripetal accelerations agree. -/
theorem rotation_consistent (ω r : ℝ) (hω : 0 < ω) (hr : 0 < r) :
    ∃ T f v a : ℝ, phyRotPeriod (XR.fin ω) = (0, XR.fin T) ∧ phyRotFrequency (XR.fin ω) = (0, XR.fin f) ∧ T * f = 1 ∧
      phyRotTurn (XR.fin (ω * T)) = (0, XR.fin 1) ∧ phyRotVel (XR.fin ω) (XR.fin r) = (0, XR.fin v) ∧
      phyRotCentAccel (XR.fin v) (XR.fin r) = (0, XR.fin a) ∧ phyRotCentAccel2 (XR.fin T) (XR.fin r) = (0, XR.fin a) ∧
      a = ω ^ 2 * r := by
  have hp := π'_pos
  have e1 : (ω * r) ^ 2 / r = ω ^ 2 * r := by field_simp
  refine ⟨_, _, _, _, (phy_rot_period_correct ω).value (not_le.2 hω), (phy_rot_frequency_correct ω).value (not_lt.2 hω.le), ?_, ?_,
    (phy_rot_vel_correct ω r).value (not_lt.2 hr.le), (phy_rot_cent_accel_correct _ r).value (not_le.2 hr), ?_, e1⟩
  · field_simp
  · rw [(phy_rot_turn_correct _).value id]; congr 2; field_simp
  · rw [(phy_rot_cent_accel2_correct _ r).value (by rw [not_or]; exact ⟨not_lt.2 hr.le, not_le.2 (by positivity)⟩), e1]
    congr 2; field_simp

/-- C93. The kinetic energy of a point mass is its rotational energy (moment of inertia `m r²`), and power is the rate of it. -/
theorem rotation_energy (m ω r : ℝ) (hm : 0 ≤ m) (hr : 0 ≤ r) :
    ∃ v E : ℝ, phyRotVel (XR.fin ω) (XR.fin r) = (0, XR.fin v) ∧ phyEnerKin (XR.fin v) (XR.fin m) = (0, XR.fin E) ∧
      phyRotEner (XR.fin ω) (XR.fin (m * r ^ 2)) = (0, XR.fin E) ∧ phyEnerRot (XR.fin ω) (XR.fin (m * r ^ 2)) = (0, XR.fin E) ∧
      phyKinEner (XR.fin v) (XR.fin m) = (0, XR.fin E) := by
  have hi : ¬m * r ^ 2 < 0 := not_lt.2 (by positivity)
  refine ⟨_, _, (phy_rot_vel_correct ω r).value (not_lt.2 hr), (phy_ener_kin_correct _ m).value (not_lt.2 hm), ?_, ?_, ?_⟩
  · rw [(phy_rot_ener_correct ω _).value hi]; congr 2; ring
  · rw [(phy_ener_rot_correct ω _).value hi]; congr 2; ring
  · rw [(phy_kin_ener_correct _ m).value (not_lt.2 hm)]

/-- C93. Radioactive decay: the amount falls, halves compose (`s` then `t` is `s + t`). -/
theorem decay_split (q s t lam : ℝ) (hs : 0 ≤ s) (ht : 0 ≤ t) (hl : 0 ≤ lam) :
    ∃ a : ℝ, phyAtomRadDecay (XR.fin q) (XR.fin s) (XR.fin lam) = (0, XR.fin a) ∧ |a| ≤ |q| ∧
      phyAtomRadDecay (XR.fin a) (XR.fin t) (XR.fin lam) = phyAtomRadDecay (XR.fin q) (XR.fin (s + t)) (XR.fin lam) := by
  have he : 1 ≤ e' := by unfold e'; norm_num
  have dom : ∀ u : ℝ, 0 ≤ u → ¬(u < 0 ∨ lam < 0) := fun u h => by rw [not_or]; exact ⟨not_lt.2 h, not_lt.2 hl⟩
  refine ⟨_, (phy_atom_rad_decay_correct q s lam).value (dom s hs), ?_, ?_⟩
  · rw [abs_mul]
    have h1 : e' ^ (-(lam * s)) ≤ 1 := Real.rpow_le_one_of_one_le_of_nonpos he (neg_nonpos.2 (mul_nonneg hl hs))
    have h0 : 0 ≤ e' ^ (-(lam * s)) := Real.rpow_nonneg (by linarith) _
    rw [abs_of_nonneg h0]
    nlinarith [abs_nonneg q]
  · rw [(phy_atom_rad_decay_correct _ t lam).value (dom t ht), (phy_atom_rad_decay_correct q (s + t) lam).value (dom _ (by positivity)),
      mul_assoc, ← Real.rpow_add (by linarith)]
    congr 4
    ring

example : ∃ T f : ℝ, phyRotPeriod (XR.fin 2) = (0, XR.fin T) ∧ phyRotFrequency (XR.fin 2) = (0, XR.fin f) ∧ T * f = 1 := by
  obtain ⟨T, f, _, _, h1, h2, h3, -⟩ := rotation_consistent 2 3 (by norm_num) (by norm_num)
  exact ⟨T, f, h1, h2, h3⟩

end Verif
