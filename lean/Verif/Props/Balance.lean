import Verif.Lemmas.Balance
import Verif.Props.Decomp4

/-!
# Balancing terminates (C81) and balances (C137)

If the two uninitialised locals happen to hold zero, `zsl_mtx_balance` returns for every real matrix.
-/

namespace Verif

open Out

variable {n : ℕ}

theorem balanceUp_eq (r : ℝ) (N : ℕ) (c p : ℝ) (h : r ≤ c * 4 ^ N) :
    ∃ m : ℕ, r ≤ c * 4 ^ m ∧ (0 < m → c * 4 ^ m < r * 4) ∧ ∀ fuel, N ≤ fuel → balanceUp fuel (XR.fin r) (XR.fin c) (XR.fin p) = ok (XR.fin (c * 4 ^ m), XR.fin (p * 2 ^ m)) := by
  induction N generalizing c p with
  | zero =>
    refine ⟨0, h, fun h => absurd h (lt_irrefl _), fun fuel _ => ?_⟩
    unfold balanceUp
    rw [if_neg (by simpa using h)]
    simp
  | succ N ih =>
    by_cases hc : c < r
    · obtain ⟨m, hm1, hm2, hm⟩ := ih (c * 4) (p * 2) (by rw [mul_assoc, ← pow_succ']; exact h)
      have e : c * 4 ^ (m + 1) = c * 4 * 4 ^ m := by ring
      refine ⟨m + 1, by rw [e]; exact hm1, fun _ => ?_, fun fuel hf => ?_⟩
      · rw [e]
        rcases Nat.eq_zero_or_pos m with rfl | h0
        · rw [pow_zero, mul_one]
          linarith
        · exact hm2 h0
      obtain ⟨fuel, rfl⟩ : ∃ f, fuel = f + 1 := ⟨fuel - 1, by omega⟩
      unfold balanceUp
      rw [if_pos (by simpa using hc)]
      simp only
      rw [XR.lit_eq, XR.lit_eq, XR.fin_mul, XR.fin_mul, show (((4 : ℚ) : ℝ)) = 4 by norm_num, show (((2 : ℚ) : ℝ)) = 2 by norm_num,
        hm fuel (by omega)]
      congr 3 <;> ring
    · refine ⟨0, by simpa using hc, fun h => absurd h (lt_irrefl _), fun fuel _ => ?_⟩
      unfold balanceUp
      rw [if_neg (by simpa using hc)]
      simp

theorem balanceDown_eq (r : ℝ) (N : ℕ) (c p : ℝ) (h : c / 4 ^ N ≤ r) :
    ∃ m : ℕ, c / 4 ^ m ≤ r ∧ (0 < m → r < c / 4 ^ m * 4) ∧ ∀ fuel, N ≤ fuel → balanceDown fuel (XR.fin r) (XR.fin c) (XR.fin p) = ok (XR.fin (c / 4 ^ m), XR.fin (p / 2 ^ m)) := by
  induction N generalizing c p with
  | zero =>
    refine ⟨0, h, fun h => absurd h (lt_irrefl _), fun fuel _ => ?_⟩
    unfold balanceDown
    rw [if_neg (by simpa using h)]
    simp
  | succ N ih =>
    by_cases hc : r < c
    · obtain ⟨m, hm1, hm2, hm⟩ := ih (c / 4) (p / 2) (by rw [div_div, ← pow_succ']; exact h)
      have e : c / 4 ^ (m + 1) = c / 4 / 4 ^ m := by rw [pow_succ', div_div]
      refine ⟨m + 1, by rw [e]; exact hm1, fun _ => ?_, fun fuel hf => ?_⟩
      · rw [e]
        rcases Nat.eq_zero_or_pos m with rfl | h0
        · rw [pow_zero, div_one]
          linarith
        · exact hm2 h0
      obtain ⟨fuel, rfl⟩ : ∃ f, fuel = f + 1 := ⟨fuel - 1, by omega⟩
      unfold balanceDown
      rw [if_pos (by simpa using hc)]
      simp only
      rw [XR.lit_eq, XR.lit_eq, XR.fin_div (by norm_num), XR.fin_div (by norm_num), show (((4 : ℚ) : ℝ)) = 4 by norm_num,
        show (((2 : ℚ) : ℝ)) = 2 by norm_num, hm fuel (by omega), div_div, div_div, ← pow_succ', ← pow_succ']
    · refine ⟨0, by simpa using hc, fun h => absurd h (lt_irrefl _), fun fuel _ => ?_⟩
      unfold balanceDown
      rw [if_neg (by simpa using hc)]
      simp

/-- The cells of the matrix scaled by powers of two. -/
noncomputable def balD (n : ℕ) (A : ℕ → ℕ → ℝ) (k : ℕ → ℤ) (t : List XR) : List XR := simD n A (fun a => (2 : ℝ) ^ k a) t

theorem balD_abs (A : ℕ → ℕ → ℝ) (k : ℕ → ℤ) (i j : ℕ) :
    |A i j * (2 : ℝ) ^ k j / (2 : ℝ) ^ k i| = Bal.E (fun i j => |A i j|) k i j := by
  unfold Bal.E
  rw [mul_div_assoc, ← zpow_sub₀ (by norm_num), abs_mul, abs_of_nonneg (zpow_nonneg (by norm_num : (0 : ℝ) ≤ 2) _)]

/-- A row sum and a column sum that a scaling by the power of two `f` does not improve much. -/
theorem balanced_of_ge (a b f : ℝ) (ha : 0 < a) (hb : 0 < b) (hf : f = 2 ∨ 4 ≤ f) (h : a * (f * f) < 2 * b)
    (hge : 19 / 20 * (a + b) ≤ a * f + b / f) : 3 * b ≤ 7 * a := by
  rcases hf with rfl | hf
  · linarith
  · exfalso
    have hf0 : 0 < f := by linarith
    have h1 : 19 / 20 * (a + b) * f ≤ a * (f * f) + b := by
      have := mul_le_mul_of_nonneg_right hge hf0.le
      have e : (a * f + b / f) * f = a * (f * f) + b := by field_simp
      linarith
    nlinarith

/-- Row sum and column sum are both zero or within a factor of 7/3 of each other, or one of them is zero. -/
def Balanced (r c : ℝ) : Prop := r = 0 ∨ c = 0 ∨ 3 * r ≤ 7 * c ∧ 3 * c ≤ 7 * r

/-- One pass over a row: nothing happens, or one step. -/
theorem balanceRow_step (A : ℕ → ℕ → ℝ) (t : List XR) (k : ℕ → ℤ) (i : ℕ) (hi : i < n) :
    ∃ (b : Bool) (k' : ℕ → ℤ) (F : ℕ), (b = true ∧ k' = k ∧ Balanced (Bal.row n (fun i j => |A i j|) k i) (Bal.col n (fun i j => |A i j|) k i) ∨
      b = false ∧ Bal.Step n (fun i j => |A i j|) i k' k) ∧
      ∀ fuel, F ≤ fuel → ∀ done, balanceRow fuel n i (done, XR.fin 0, XR.fin 0, balD n A k t) =
        ok (done && b, XR.fin 0, XR.fin 0, balD n A k' t) := by
  set r := Bal.row n (fun i j => |A i j|) k i with hr
  set c := Bal.col n (fun i j => |A i j|) k i with hc
  have hw : ∀ i j, 0 ≤ (fun i j => |A i j|) i j := fun i j => abs_nonneg _
  have hr0 : 0 ≤ r := Finset.sum_nonneg fun j _ => Bal.E_nonneg hw k i j
  have hc0 : 0 ≤ c := Finset.sum_nonneg fun j _ => Bal.E_nonneg hw k j i
  have hsum : forN n (fun j (s : XR × XR) => do
      let a ← rd (balD n A k t) (i * n + j)
      let b ← rd (balD n A k t) (j * n + i)
      return (s.1 + CReal.abs a, s.2 + CReal.abs b)) (XR.fin 0, XR.fin 0) = ok (XR.fin r, XR.fin c) := by
    rw [forN_eq (fun m => (XR.fin (∑ j ∈ Finset.range m, Bal.E (fun i j => |A i j|) k i j),
      XR.fin (∑ j ∈ Finset.range m, Bal.E (fun i j => |A i j|) k j i)))]
    · rfl
    · simp
    · intro j hj
      unfold balD simD
      rw [mkD_rd _ _ hi hj, ok_bind, mkD_rd _ _ hj hi, ok_bind, pure_eq]
      simp only [XR.fin_abs, XR.fin_add]
      rw [balD_abs, balD_abs, Finset.sum_range_succ, Finset.sum_range_succ]
  by_cases hz : c = 0 ∨ r = 0
  · refine ⟨true, k, 0, Or.inl ⟨rfl, rfl, hz.elim (fun h => Or.inr (Or.inl h)) Or.inl⟩, fun fuel _ done => ?_⟩
    unfold balanceRow
    simp only
    rw [hsum, ok_bind]
    simp only
    rw [if_neg (by rcases hz with h | h <;> simp [h])]
    simp
  · push Not at hz
    have hrp : 0 < r := lt_of_le_of_ne hr0 (Ne.symm hz.2)
    have hcp : 0 < c := lt_of_le_of_ne hc0 (Ne.symm hz.1)
    obtain ⟨N1, hN1⟩ : ∃ N : ℕ, r / 2 ≤ c * 4 ^ N := by
      obtain ⟨N, hN⟩ := pow_unbounded_of_one_lt (r / 2 / c) (by norm_num : (1 : ℝ) < 4)
      refine ⟨N, ?_⟩
      rw [div_lt_iff₀ hcp] at hN
      linarith
    obtain ⟨m1, hu1, hu2, hm1⟩ := balanceUp_eq (r / 2) N1 c 1 hN1
    obtain ⟨N2, hN2⟩ : ∃ N : ℕ, c * 4 ^ m1 / 4 ^ N ≤ r * 2 := by
      obtain ⟨N, hN⟩ := pow_unbounded_of_one_lt (c * 4 ^ m1 / (r * 2)) (by norm_num : (1 : ℝ) < 4)
      refine ⟨N, ?_⟩
      rw [div_lt_iff₀ (by positivity)] at hN
      rw [div_le_iff₀ (by positivity)]
      linarith
    obtain ⟨m2, hd1, hd2, hm2⟩ := balanceDown_eq (r * 2) N2 (c * 4 ^ m1) (1 * 2 ^ m1) hN2
    set m : ℤ := (m1 : ℤ) - m2 with hm
    have hf : (1 : ℝ) * 2 ^ m1 / 2 ^ m2 = (2 : ℝ) ^ m := by
      rw [one_mul, hm, zpow_sub₀ (by norm_num), zpow_natCast, zpow_natCast]
    have hf0 : (0 : ℝ) < (2 : ℝ) ^ m := zpow_pos (by norm_num) _
    have hc4 : c * 4 ^ m1 / 4 ^ m2 = c * ((2 : ℝ) ^ m * (2 : ℝ) ^ m) := by
      rw [← hf, one_mul, show (4 : ℝ) = 2 * 2 by norm_num, mul_pow, mul_pow]
      field_simp
    have hup : ∀ fuel, N1 ≤ fuel → balanceUp fuel (XR.fin r / lit 2) (XR.fin c) (lit 1) =
        ok (XR.fin (c * 4 ^ m1), XR.fin (1 * 2 ^ m1)) := by
      intro fuel hfu
      rw [XR.lit_eq, XR.lit_eq, XR.fin_div (by norm_num), show (((2 : ℚ) : ℝ)) = 2 by norm_num, show (((1 : ℚ) : ℝ)) = 1 by norm_num]
      exact hm1 fuel hfu
    have hdown : ∀ fuel, N2 ≤ fuel → balanceDown fuel (XR.fin r * lit 2) (XR.fin (c * 4 ^ m1)) (XR.fin (1 * 2 ^ m1)) =
        ok (XR.fin (c * ((2 : ℝ) ^ m * (2 : ℝ) ^ m)), XR.fin ((2 : ℝ) ^ m)) := by
      intro fuel hfu
      rw [XR.lit_eq, XR.fin_mul, show (((2 : ℚ) : ℝ)) = 2 by norm_num, ← hc4, ← hf]
      exact hm2 fuel hfu
    have hcond : CReal.lt ((XR.fin (c * ((2 : ℝ) ^ m * (2 : ℝ) ^ m)) + XR.fin r) / XR.fin ((2 : ℝ) ^ m))
        (lit 0.95 * (XR.fin c + XR.fin r)) = true ↔ c * (2 : ℝ) ^ m + r / (2 : ℝ) ^ m < 19 / 20 * (c + r) := by
      rw [XR.fin_add, XR.fin_div hf0.ne', XR.lit_eq, XR.fin_add, XR.fin_mul, XR.fin_lt,
        show (((0.95 : ℚ) : ℝ)) = 19 / 20 by norm_num]
      rw [show (c * ((2 : ℝ) ^ m * (2 : ℝ) ^ m) + r) / (2 : ℝ) ^ m = c * (2 : ℝ) ^ m + r / (2 : ℝ) ^ m by
        field_simp]
    by_cases hlt : c * (2 : ℝ) ^ m + r / (2 : ℝ) ^ m < 19 / 20 * (c + r)
    · refine ⟨false, Function.update k i (k i + m), max N1 N2, Or.inr ⟨rfl, hi, m, rfl, hrp, hcp, hlt⟩, fun fuel hfu done => ?_⟩
      unfold balanceRow
      simp only
      rw [hsum, ok_bind]
      simp only
      rw [if_pos (by simp [hz.1, hz.2]), hup fuel (le_trans (le_max_left _ _) hfu), ok_bind]
      simp only
      rw [hdown fuel (le_trans (le_max_right _ _) hfu), ok_bind]
      simp only
      rw [if_pos (hcond.2 hlt)]
      unfold balD
      rw [balance_scale A _ t i hi _ hf0 (fun a => zpow_pos (by norm_num) _), ok_bind]
      have hd : (fun a => if a = i then (2 : ℝ) ^ k a * (2 : ℝ) ^ m else (2 : ℝ) ^ k a) =
          fun a => (2 : ℝ) ^ Function.update k i (k i + m) a := by
        funext a
        by_cases ha : a = i
        · subst ha
          rw [if_pos rfl, Function.update_self, zpow_add₀ (by norm_num)]
        · rw [if_neg ha, Function.update_of_ne ha]
      rw [hd]
      simp
    · have hpow : ∀ q : ℕ, 0 < q → (2 : ℝ) ^ q = 2 ∨ 4 ≤ (2 : ℝ) ^ q := by
        intro q hq
        rcases Nat.lt_or_ge q 2 with h | h
        · left
          rw [show q = 1 by omega, pow_one]
        · right
          calc (4 : ℝ) = 2 ^ 2 := by norm_num
            _ ≤ 2 ^ q := pow_le_pow_right₀ (by norm_num) h
      have h4 : ∀ q : ℕ, (4 : ℝ) ^ q = 2 ^ q * 2 ^ q := by
        intro q
        rw [← mul_pow]
        norm_num
      have hbal : 3 * r ≤ 7 * c ∧ 3 * c ≤ 7 * r := by
        rw [not_lt] at hlt
        rcases Nat.eq_zero_or_pos m1 with h1 | h1
        · rcases Nat.eq_zero_or_pos m2 with h2 | h2
          · rw [h1] at hu1
            rw [h1, h2] at hd1
            simp only [pow_zero, mul_one, div_one] at hu1 hd1
            constructor <;> linarith
          · have h3 := hd2 h2
            rw [h1, pow_zero, mul_one, h4] at h3
            have hg0 : (0 : ℝ) < 2 ^ m2 := by positivity
            have hf2 : (2 : ℝ) ^ m = 1 / 2 ^ m2 := by
              rw [← hf, h1]
              simp
            rw [hf2] at hlt
            have h5 : r * (2 ^ m2 * 2 ^ m2) < 2 * c := by
              rw [div_mul_eq_mul_div, lt_div_iff₀ (by positivity)] at h3
              linarith
            have h6 := balanced_of_ge r c (2 ^ m2) hrp hcp (hpow m2 h2) h5 (by
              have e : c * (1 / 2 ^ m2) + r / (1 / 2 ^ m2) = r * 2 ^ m2 + c / 2 ^ m2 := by
                field_simp
                ring
              linarith)
            refine ⟨?_, h6⟩
            have h8 : r * 4 ≤ r * (2 ^ m2 * 2 ^ m2) := by
              refine mul_le_mul_of_nonneg_left ?_ (hrp.le)
              rcases hpow m2 h2 with h7 | h7
              · rw [h7]
                norm_num
              · nlinarith
            linarith
        · have h2 : m2 = 0 := by
            by_contra hne
            have h3 := hd2 (Nat.pos_of_ne_zero hne)
            have h5 := hu2 h1
            have h6 : c * 4 ^ m1 / 4 ^ m2 * 4 ≤ c * 4 ^ m1 := by
              rw [div_mul_eq_mul_div, div_le_iff₀ (by positivity)]
              refine mul_le_mul_of_nonneg_left ?_ (by positivity)
              calc (4 : ℝ) = 4 ^ 1 := by norm_num
                _ ≤ 4 ^ m2 := pow_le_pow_right₀ (by norm_num) (Nat.pos_of_ne_zero hne)
            linarith
          have h5 := hu2 h1
          rw [h4] at h5
          have hf2 : (2 : ℝ) ^ m = 2 ^ m1 := by
            rw [← hf, h2]
            simp
          rw [hf2] at hlt
          have h6 := balanced_of_ge c r (2 ^ m1) hcp hrp (hpow m1 h1) (by linarith) hlt
          refine ⟨h6, ?_⟩
          have h8 : c * 4 ≤ c * (2 ^ m1 * 2 ^ m1) := by
            refine mul_le_mul_of_nonneg_left ?_ (hcp.le)
            rcases hpow m1 h1 with h7 | h7
            · rw [h7]
              norm_num
            · nlinarith
          linarith
      refine ⟨true, k, max N1 N2, Or.inl ⟨rfl, rfl, Or.inr (Or.inr hbal)⟩, fun fuel hfu done => ?_⟩
      unfold balanceRow
      simp only
      rw [hsum, ok_bind]
      simp only
      rw [if_pos (by simp [hz.1, hz.2]), hup fuel (le_trans (le_max_left _ _) hfu), ok_bind]
      simp only
      rw [hdown fuel (le_trans (le_max_right _ _) hfu), ok_bind]
      simp only
      rw [if_neg (fun h => hlt (hcond.1 h))]
      simp

/-- One sweep over all rows: nothing happens, or at least one step. -/
theorem balance_sweep (A : ℕ → ℕ → ℝ) (t : List XR) (k : ℕ → ℤ) (p : ℕ) (hp : p ≤ n) :
    ∃ (b : Bool) (k' : ℕ → ℤ) (F : ℕ),
      (b = true ∧ k' = k ∧ (∀ i < p, Balanced (Bal.row n (fun i j => |A i j|) k i) (Bal.col n (fun i j => |A i j|) k i)) ∨
        b = false ∧ Relation.TransGen (fun k' k => ∃ i, Bal.Step n (fun i j => |A i j|) i k' k) k' k) ∧
      ∀ fuel, F ≤ fuel → forN p (fun i s => balanceRow fuel n i s) (true, XR.fin 0, XR.fin 0, balD n A k t) =
        ok (b, XR.fin 0, XR.fin 0, balD n A k' t) := by
  induction p with
  | zero => exact ⟨true, k, 0, Or.inl ⟨rfl, rfl, fun i hi => absurd hi (by omega)⟩, fun _ _ => rfl⟩
  | succ p ih =>
    obtain ⟨b, k', F, hb, hF⟩ := ih (by omega)
    obtain ⟨b2, k2, F2, hb2, hF2⟩ := balanceRow_step (n := n) A t k' p (by omega)
    refine ⟨b && b2, k2, max F F2, ?_, fun fuel hfu => ?_⟩
    · rcases hb with ⟨rfl, rfl, hb⟩ | ⟨rfl, hb⟩
      · rcases hb2 with ⟨rfl, rfl, hb2⟩ | ⟨rfl, hb2⟩
        · refine Or.inl ⟨rfl, rfl, fun i hi => ?_⟩
          rcases Nat.lt_succ_iff_lt_or_eq.1 hi with h | rfl
          · exact hb i h
          · exact hb2
        · exact Or.inr ⟨rfl, .single ⟨p, hb2⟩⟩
      · rcases hb2 with ⟨rfl, rfl, -⟩ | ⟨rfl, hb2⟩
        · exact Or.inr ⟨rfl, hb⟩
        · exact Or.inr ⟨rfl, .head ⟨p, hb2⟩ hb⟩
    · rw [forN_succ, hF fuel (le_trans (le_max_left _ _) hfu), ok_bind, hF2 fuel (le_trans (le_max_right _ _) hfu)]

/-- The loop returns, leaves every row balanced against its column, and does not increase the sum of the absolute values. -/
theorem balanceLoop_returns (A : ℕ → ℕ → ℝ) (t : List XR) (k : ℕ → ℤ) :
    ∃ (k' : ℕ → ℤ) (F : ℕ), (∀ i < n, Balanced (Bal.row n (fun i j => |A i j|) k' i) (Bal.col n (fun i j => |A i j|) k' i)) ∧
      Bal.S n (fun i j => |A i j|) k' ≤ Bal.S n (fun i j => |A i j|) k ∧ ∀ fuel, F ≤ fuel → balanceLoop fuel n (XR.fin 0) (XR.fin 0) (balD n A k t) = ok (balD n A k' t) := by
  have hwf := (Bal.step_wf (n := n) (w := fun i j => |A i j|) fun i j => abs_nonneg _).transGen
  induction k using hwf.induction with
  | _ k ih =>
    obtain ⟨b, k', F, hb, hF⟩ := balance_sweep (n := n) A t k n le_rfl
    rcases hb with ⟨rfl, rfl, hbal⟩ | ⟨rfl, hb⟩
    · refine ⟨k', F + 1, hbal, le_rfl, fun fuel hfu => ?_⟩
      obtain ⟨fuel, rfl⟩ : ∃ f, fuel = f + 1 := ⟨fuel - 1, by omega⟩
      unfold balanceLoop
      rw [hF _ (by omega), ok_bind]
      rfl
    · obtain ⟨k2, F2, hbal, hS, hF2⟩ := ih k' hb
      have hS' : Bal.S n (fun i j => |A i j|) k' ≤ Bal.S n (fun i j => |A i j|) k := by
        refine Relation.TransGen.trans_induction_on (motive := fun {a b} _ => Bal.S n (fun i j => |A i j|) a ≤ Bal.S n (fun i j => |A i j|) b) hb
          (fun {a b} h => ?_) fun _ _ h1 h2 => h1.trans h2
        obtain ⟨i, hi⟩ := h
        have h1 := Bal.step_drop (fun i j => abs_nonneg _) i b a hi
        obtain ⟨-, -, -, h2, h3, -⟩ := hi
        linarith
      refine ⟨k2, max F F2 + 1, hbal, hS.trans hS', fun fuel hfu => ?_⟩
      obtain ⟨fuel, rfl⟩ : ∃ f, fuel = f + 1 := ⟨fuel - 1, by omega⟩
      unfold balanceLoop
      rw [hF _ (by omega), ok_bind]
      exact hF2 fuel (by omega)

/-- C137. If the uninitialised locals of `zsl_mtx_balance` happen to hold zero, the function returns 0 for every real matrix, after finitely
many passes (`F` bounds the number of passes and the passes of the inner loops), and stores the input scaled by powers of two. The
matrix stored is balanced: the sums of the absolute values of row `i` and of column `i` are within a factor of 7/3 of each other, unless
one of them is zero. The sum of the absolute values of all elements has not grown. Missing: locals that do not hold zero; then the claim
is false (`mtx_balance_hangs_init`). -/
theorem mtx_balance_balances_partial (junk : ℕ → XR) (A : Matrix (Fin n) (Fin n) ℝ) (B : Matrix (Fin n) (Fin n) XR)
    (t u : List XR) (h0 : junk 0 = XR.fin 0) (h1 : junk 1 = XR.fin 0) :
    ∃ (N : Matrix (Fin n) (Fin n) ℝ) (k : Fin n → ℤ) (F : ℕ), (∀ i j, N i j = A i j * (2 : ℝ) ^ (k j - k i)) ∧
      (∀ i, ∑ j, |N i j| = 0 ∨ ∑ j, |N j i| = 0 ∨ 3 * ∑ j, |N i j| ≤ 7 * ∑ j, |N j i| ∧ 3 * ∑ j, |N j i| ≤ 7 * ∑ j, |N i j|) ∧
      ∑ i, ∑ j, |N i j| ≤ ∑ i, ∑ j, |A i j| ∧
      ∀ fuel, F ≤ fuel → mtxBalance fuel junk (mat A t) (mtxOf B u) = ok (0, mat N u) := by
  set G : ℕ → ℕ → ℝ := fun a b => if h : a < n ∧ b < n then A ⟨a, h.1⟩ ⟨b, h.2⟩ else 0 with hG
  obtain ⟨k, F, hbal, hS, hF⟩ := balanceLoop_returns (n := n) G u fun _ => 0
  have hE : ∀ i j : Fin n, |A i j * (2 : ℝ) ^ (k j - k i)| = Bal.E (fun i j => |G i j|) k i j := by
    intro i j
    unfold Bal.E
    rw [abs_mul, abs_of_nonneg (zpow_nonneg (by norm_num : (0 : ℝ) ≤ 2) _)]
    simp [hG]
  have hE0 : ∀ i j : Fin n, |A i j| = Bal.E (fun i j => |G i j|) (fun _ => 0) i j := by
    intro i j
    unfold Bal.E
    simp [hG]
  have hrow : ∀ i : Fin n, ∑ j, |A i j * (2 : ℝ) ^ (k j - k i)| = Bal.row n (fun i j => |G i j|) k i := by
    intro i
    unfold Bal.row
    rw [← Fin.sum_univ_eq_sum_range fun j => Bal.E (fun i j => |G i j|) k i j]
    exact Finset.sum_congr rfl fun j _ => hE i j
  have hcol : ∀ i : Fin n, ∑ j, |A j i * (2 : ℝ) ^ (k i - k j)| = Bal.col n (fun i j => |G i j|) k i := by
    intro i
    unfold Bal.col
    rw [← Fin.sum_univ_eq_sum_range fun j => Bal.E (fun i j => |G i j|) k j i]
    exact Finset.sum_congr rfl fun j _ => hE j i
  have htot : ∀ q : ℕ → ℤ, ∑ i : Fin n, ∑ j : Fin n, Bal.E (fun i j => |G i j|) q i j =
      (∑ i : Fin n, |A i i|) + Bal.S n (fun i j => |G i j|) q := by
    intro q
    unfold Bal.S
    rw [← Fin.sum_univ_eq_sum_range fun i => ∑ j ∈ Finset.range n, if i = j then 0 else Bal.E (fun i j => |G i j|) q i j,
      ← Finset.sum_add_distrib]
    refine Finset.sum_congr rfl fun i _ => ?_
    rw [← Fin.sum_univ_eq_sum_range fun j => if i.val = j then 0 else Bal.E (fun i j => |G i j|) q i j,
      ← Finset.add_sum_erase _ _ (Finset.mem_univ i), ← Finset.add_sum_erase _ (fun j : Fin n => if i.val = j.val then 0 else _)
      (Finset.mem_univ i), if_pos rfl, zero_add, Bal.E_self]
    congr 1
    · simp [hG]
    · refine Finset.sum_congr rfl fun j hj => ?_
      rw [if_neg fun h => (Finset.mem_erase.1 hj).1 (Fin.ext h.symm)]
  refine ⟨Matrix.of fun i j => A i j * (2 : ℝ) ^ (k j - k i), fun i => k i, F, fun _ _ => rfl, fun i => ?_, ?_, fun fuel hfu => ?_⟩
  · have := hbal i i.2
    rw [← hrow, ← hcol] at this
    exact this
  · calc ∑ i : Fin n, ∑ j : Fin n, |A i j * (2 : ℝ) ^ (k j - k i)| = ∑ i : Fin n, ∑ j : Fin n, Bal.E (fun i j => |G i j|) k i j :=
        Finset.sum_congr rfl fun i _ => Finset.sum_congr rfl fun j _ => hE i j
      _ ≤ ∑ i : Fin n, ∑ j : Fin n, Bal.E (fun i j => |G i j|) (fun _ => 0) i j := by
        rw [htot, htot]
        linarith
      _ = ∑ i, ∑ j, |A i j| := Finset.sum_congr rfl fun i _ => Finset.sum_congr rfl fun j _ => (hE0 i j).symm
  unfold mtxBalance
  rw [if_neg (by simp), if_neg (by simp), if_neg (by simp), show mat A t = mtxOf (A.map XR.fin) t from rfl,
    mtx_copy_correct, ok_bind]
  dsimp only
  rw [if_neg (by simp), mtxOf_rows, h0, h1]
  have hdata : (mtxOf (A.map XR.fin) u).data = balD n G (fun _ => 0) u := by
    rw [mtxOf_eq, mkM_data]
    unfold balD simD
    refine mkD_congr fun a ha b hb => ?_
    rw [ext_lt _ ha hb]
    simp [hG, ha, hb]
  rw [hdata, hF fuel hfu, ok_bind, pure_eq]
  congr 2
  have hres : balD n G k u = (mat (Matrix.of fun i j => A i j * (2 : ℝ) ^ (k j - k i)) u).data := by
    unfold mat balD simD
    rw [mtxOf_eq, mkM_data]
    refine mkD_congr fun a ha b hb => ?_
    rw [ext_lt _ ha hb]
    simp only [hG, ha, hb, and_self, dif_pos, Matrix.map_apply, Matrix.of_apply]
    congr 1
    rw [mul_div_assoc, zpow_sub₀ (by norm_num)]
  rw [hres]
  rfl

/-- C81. If the uninitialised locals of `zsl_mtx_balance` happen to hold zero, the function returns 0 for every real matrix. Missing:
locals that do not hold zero; then the claim is false (`mtx_balance_hangs_init`). -/
theorem mtx_balance_terminates_partial (junk : ℕ → XR) (A : Matrix (Fin n) (Fin n) ℝ) (B : Matrix (Fin n) (Fin n) XR)
    (t u : List XR) (h0 : junk 0 = XR.fin 0) (h1 : junk 1 = XR.fin 0) :
    ∃ (k : Fin n → ℤ) (F : ℕ), ∀ fuel, F ≤ fuel → mtxBalance fuel junk (mat A t) (mtxOf B u) =
      ok (0, mat (Matrix.of fun i j => A i j * (2 : ℝ) ^ (k j - k i)) u) := by
  obtain ⟨N, k, F, hN, -, -, hF⟩ := mtx_balance_balances_partial junk A B t u h0 h1
  refine ⟨k, F, fun fuel hf => ?_⟩
  rw [hF fuel hf, show N = Matrix.of fun i j => A i j * (2 : ℝ) ^ (k j - k i) from Matrix.ext hN]


/-- Non-vacuity: a matrix that is not balanced at the start. -/
example (junk : ℕ → XR) (h0 : junk 0 = XR.fin 0) (h1 : junk 1 = XR.fin 0) : ∃ (k : Fin 2 → ℤ) (fuel : ℕ),
    mtxBalance fuel junk (mat !![1, 100; 1, 1] []) (mat (0 : Matrix (Fin 2) (Fin 2) ℝ) []) =
      ok (0, mat !![1 * 2 ^ (k 0 - k 0), 100 * 2 ^ (k 1 - k 0); 1 * 2 ^ (k 0 - k 1), 1 * 2 ^ (k 1 - k 1)] []) := by
  obtain ⟨k, F, hF⟩ := mtx_balance_terminates_partial junk !![1, 100; 1, 1] ((0 : Matrix (Fin 2) (Fin 2) ℝ).map XR.fin) [] [] h0 h1
  refine ⟨k, F, (hF F le_rfl).trans ?_⟩
  congr 3
  ext i j
  fin_cases i <;> fin_cases j <;> rfl

end Verif
