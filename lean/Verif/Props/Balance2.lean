import Verif.Props.Balance
import Verif.Props.Eigen1

/-!
# When balancing terminates (C81)

The exact condition on the two uninitialised locals under which `zsl_mtx_balance` returns.
-/

namespace Verif

open Out

variable {n : ℕ}

/-- The first loop does not end for a negative column sum below half the row sum, -/
theorem balanceUp_hangs (r : ℝ) (fuel : ℕ) (c p : ℝ) (hc : c < 0) (h : c < r) : balanceUp fuel (XR.fin r) (XR.fin c) (XR.fin p) = ub := by
  induction fuel generalizing c p with
  | zero =>
    unfold balanceUp
    rw [if_pos (by simpa using h)]
  | succ fuel ih =>
    unfold balanceUp
    rw [if_pos (by simpa using h)]
    simp only
    rw [XR.lit_eq, XR.lit_eq, XR.fin_mul, XR.fin_mul, show (((4 : ℚ) : ℝ)) = 4 by norm_num]
    exact ih _ _ (by linarith) (by linarith)

/-- and the second one not for a negative row sum. -/
theorem balanceDown_hangs (r : ℝ) (fuel : ℕ) (c p : ℝ) (hr : r < 0) (h : r < c) : balanceDown fuel (XR.fin r) (XR.fin c) (XR.fin p) = ub := by
  induction fuel generalizing c p with
  | zero =>
    unfold balanceDown
    rw [if_pos (by simpa using h)]
  | succ fuel ih =>
    unfold balanceDown
    rw [if_pos (by simpa using h)]
    simp only
    rw [XR.lit_eq, XR.lit_eq, XR.fin_div (by norm_num), XR.fin_div (by norm_num), show (((4 : ℚ) : ℝ)) = 4 by norm_num]
    refine ih _ _ ?_
    rcases le_or_gt 0 c with h0 | h0 <;> linarith

/-- The row sum and the column sum of the first row when the locals start at `r0` and `c0`. -/
theorem balanceRow_sums (A : ℕ → ℕ → ℝ) (t : List XR) (k : ℕ → ℤ) (i : ℕ) (hi : i < n) (r0 c0 : ℝ) :
    forN n (fun j (s : XR × XR) => do
      let a ← rd (balD n A k t) (i * n + j)
      let b ← rd (balD n A k t) (j * n + i)
      return (s.1 + CReal.abs a, s.2 + CReal.abs b)) (XR.fin r0, XR.fin c0) =
        ok (XR.fin (r0 + Bal.row n (fun i j => |A i j|) k i), XR.fin (c0 + Bal.col n (fun i j => |A i j|) k i)) := by
  rw [forN_eq (fun m => (XR.fin (r0 + ∑ j ∈ Finset.range m, Bal.E (fun i j => |A i j|) k i j),
    XR.fin (c0 + ∑ j ∈ Finset.range m, Bal.E (fun i j => |A i j|) k j i)))]
  · rfl
  · simp
  · intro j hj
    unfold balD simD
    rw [mkD_rd _ _ hi hj, ok_bind, mkD_rd _ _ hj hi, ok_bind, pure_eq]
    simp only [XR.fin_abs, XR.fin_add]
    rw [balD_abs, balD_abs, Finset.sum_range_succ, Finset.sum_range_succ, add_assoc, add_assoc]

/-- The condition on the sums of the first row. -/
def GoodSums (r c : ℝ) : Prop := r = 0 ∨ c = 0 ∨ 0 < r ∧ 0 < c

/-- The pass over the first row with good sums. -/
theorem balanceRow_start (A : ℕ → ℕ → ℝ) (t : List XR) (k : ℕ → ℤ) (i : ℕ) (hi : i < n) (r0 c0 : ℝ)
    (h : GoodSums (r0 + Bal.row n (fun i j => |A i j|) k i) (c0 + Bal.col n (fun i j => |A i j|) k i)) :
    ∃ (b : Bool) (k' : ℕ → ℤ) (F : ℕ), (b = true → k' = k) ∧ ∀ fuel, F ≤ fuel → ∀ done,
      balanceRow fuel n i (done, XR.fin r0, XR.fin c0, balD n A k t) = ok (done && b, XR.fin 0, XR.fin 0, balD n A k' t) := by
  have hsum := balanceRow_sums (n := n) A t k i hi r0 c0
  set r := r0 + Bal.row n (fun i j => |A i j|) k i with hr
  set c := c0 + Bal.col n (fun i j => |A i j|) k i with hc
  by_cases hz : c = 0 ∨ r = 0
  · refine ⟨true, k, 0, fun _ => rfl, fun fuel _ done => ?_⟩
    unfold balanceRow
    simp only
    rw [hsum, ok_bind]
    simp only
    rw [if_neg (by rcases hz with h | h <;> simp [h])]
    simp
  · push Not at hz
    obtain ⟨hrp, hcp⟩ := (h.resolve_left hz.2).resolve_left hz.1
    obtain ⟨N1, hN1⟩ : ∃ N : ℕ, r / 2 ≤ c * 4 ^ N := by
      obtain ⟨N, hN⟩ := pow_unbounded_of_one_lt (r / 2 / c) (by norm_num : (1 : ℝ) < 4)
      refine ⟨N, ?_⟩
      rw [div_lt_iff₀ hcp] at hN
      linarith
    obtain ⟨m1, -, -, hm1⟩ := balanceUp_eq (r / 2) N1 c 1 hN1
    obtain ⟨N2, hN2⟩ : ∃ N : ℕ, c * 4 ^ m1 / 4 ^ N ≤ r * 2 := by
      obtain ⟨N, hN⟩ := pow_unbounded_of_one_lt (c * 4 ^ m1 / (r * 2)) (by norm_num : (1 : ℝ) < 4)
      refine ⟨N, ?_⟩
      rw [div_lt_iff₀ (by positivity)] at hN
      rw [div_le_iff₀ (by positivity)]
      linarith
    obtain ⟨m2, -, -, hm2⟩ := balanceDown_eq (r * 2) N2 (c * 4 ^ m1) (1 * 2 ^ m1) hN2
    set m : ℤ := (m1 : ℤ) - m2 with hm
    have hf : (1 : ℝ) * 2 ^ m1 / 2 ^ m2 = (2 : ℝ) ^ m := by
      rw [one_mul, hm, zpow_sub₀ (by norm_num), zpow_natCast, zpow_natCast]
    have hf0 : (0 : ℝ) < (2 : ℝ) ^ m := zpow_pos (by norm_num) _
    have hup : ∀ fuel, N1 ≤ fuel → balanceUp fuel (XR.fin r / lit 2) (XR.fin c) (lit 1) =
        ok (XR.fin (c * 4 ^ m1), XR.fin (1 * 2 ^ m1)) := by
      intro fuel hfu
      rw [XR.lit_eq, XR.lit_eq, XR.fin_div (by norm_num), show (((2 : ℚ) : ℝ)) = 2 by norm_num, show (((1 : ℚ) : ℝ)) = 1 by norm_num]
      exact hm1 fuel hfu
    have hdown : ∀ fuel, N2 ≤ fuel → balanceDown fuel (XR.fin r * lit 2) (XR.fin (c * 4 ^ m1)) (XR.fin (1 * 2 ^ m1)) =
        ok (XR.fin (c * 4 ^ m1 / 4 ^ m2), XR.fin ((2 : ℝ) ^ m)) := by
      intro fuel hfu
      rw [XR.lit_eq, XR.fin_mul, show (((2 : ℚ) : ℝ)) = 2 by norm_num, ← hf]
      exact hm2 fuel hfu
    by_cases hlt : CReal.lt ((XR.fin (c * 4 ^ m1 / 4 ^ m2) + XR.fin r) / XR.fin ((2 : ℝ) ^ m)) (lit 0.95 * (XR.fin c + XR.fin r)) = true
    · refine ⟨false, Function.update k i (k i + m), max N1 N2, (nomatch ·), fun fuel hfu done => ?_⟩
      unfold balanceRow
      simp only
      rw [hsum, ok_bind]
      simp only
      rw [if_pos (by simp [hz.1, hz.2]), hup fuel (le_trans (le_max_left _ _) hfu), ok_bind]
      simp only
      rw [hdown fuel (le_trans (le_max_right _ _) hfu), ok_bind]
      simp only
      rw [if_pos hlt]
      unfold balD
      rw [balance_scale A _ t i hi _ hf0 (fun a => zpow_pos (by norm_num) _), ok_bind]
      have hd : (fun a => if a = i then (2 : ℝ) ^ k a * (2 : ℝ) ^ m else (2 : ℝ) ^ k a) =
          fun a => (2 : ℝ) ^ Function.update k i (k i + m) a := by
        funext a
        by_cases ha : a = i
        · subst ha
          rw [if_pos rfl, Function.update_self, zpow_add₀ (by norm_num)]
        · rw [if_neg ha, Function.update_of_ne ha]
      rw [hd]
      simp
    · refine ⟨true, k, max N1 N2, fun _ => rfl, fun fuel hfu done => ?_⟩
      unfold balanceRow
      simp only
      rw [hsum, ok_bind]
      simp only
      rw [if_pos (by simp [hz.1, hz.2]), hup fuel (le_trans (le_max_left _ _) hfu), ok_bind]
      simp only
      rw [hdown fuel (le_trans (le_max_right _ _) hfu), ok_bind]
      simp only
      rw [if_neg hlt]
      simp

/-- The pass over the first row with bad sums does not end. -/
theorem balanceRow_hangs (A : ℕ → ℕ → ℝ) (t : List XR) (k : ℕ → ℤ) (i : ℕ) (hi : i < n) (r0 c0 : ℝ)
    (h : ¬ GoodSums (r0 + Bal.row n (fun i j => |A i j|) k i) (c0 + Bal.col n (fun i j => |A i j|) k i)) (fuel : ℕ) (done : Bool) :
    balanceRow fuel n i (done, XR.fin r0, XR.fin c0, balD n A k t) = ub := by
  have hsum := balanceRow_sums (n := n) A t k i hi r0 c0
  set r := r0 + Bal.row n (fun i j => |A i j|) k i with hr
  set c := c0 + Bal.col n (fun i j => |A i j|) k i with hc
  unfold GoodSums at h
  push Not at h
  obtain ⟨hr0, hc0, hpos⟩ := h
  unfold balanceRow
  simp only
  rw [hsum, ok_bind]
  simp only
  rw [if_pos (by simp [hr0, hc0])]
  have e1 : (XR.fin r / lit 2 : XR) = XR.fin (r / 2) := by
    rw [XR.lit_eq, XR.fin_div (by norm_num), show (((2 : ℚ) : ℝ)) = 2 by norm_num]
  have e2 : (XR.fin r * lit 2 : XR) = XR.fin (r * 2) := by
    rw [XR.lit_eq, XR.fin_mul, show (((2 : ℚ) : ℝ)) = 2 by norm_num]
  rw [e1, e2]
  by_cases hlt : c < r / 2
  · have hcn : c < 0 := by
      by_contra hge
      have hc' : 0 < c := lt_of_le_of_ne (not_lt.1 hge) (Ne.symm hc0)
      have := hpos (by linarith)
      linarith
    rw [show (lit 1 : XR) = XR.fin ((1 : ℚ) : ℝ) from XR.lit_eq _, balanceUp_hangs _ fuel c _ hcn hlt]
    rfl
  · have hrn : r < 0 := by
      by_contra hge
      have hr' : 0 < r := lt_of_le_of_ne (not_lt.1 hge) (Ne.symm hr0)
      have := hpos hr'
      linarith
    have hup : balanceUp fuel (XR.fin (r / 2)) (XR.fin c) (lit 1) = ok (XR.fin c, lit 1) := by
      unfold balanceUp
      rw [if_neg (by simpa using hlt)]
    rw [hup, ok_bind]
    simp only
    rw [show (lit 1 : XR) = XR.fin ((1 : ℚ) : ℝ) from XR.lit_eq _, balanceDown_hangs _ fuel c _ (by linarith) (by linarith)]
    rfl

/-- The first sweep. -/
theorem balance_sweep_start (A : ℕ → ℕ → ℝ) (t : List XR) (k : ℕ → ℤ) (r0 c0 : ℝ) (p : ℕ) (hp : p + 1 ≤ n)
    (h : GoodSums (r0 + Bal.row n (fun i j => |A i j|) k 0) (c0 + Bal.col n (fun i j => |A i j|) k 0)) :
    ∃ (b : Bool) (k' : ℕ → ℤ) (F : ℕ),
      (b = true → k' = k ∧ ∀ i, i ≠ 0 → i ≤ p → Balanced (Bal.row n (fun i j => |A i j|) k i) (Bal.col n (fun i j => |A i j|) k i)) ∧
      ∀ fuel, F ≤ fuel → forN (p + 1) (fun i s => balanceRow fuel n i s) (true, XR.fin r0, XR.fin c0, balD n A k t) =
        ok (b, XR.fin 0, XR.fin 0, balD n A k' t) := by
  induction p with
  | zero =>
    obtain ⟨b, k', F, hb, hF⟩ := balanceRow_start (n := n) A t k 0 (by omega) r0 c0 h
    refine ⟨b, k', F, fun h => ⟨hb h, fun i h1 h2 => absurd h2 (by omega)⟩, fun fuel hf => ?_⟩
    rw [forN_succ]
    change balanceRow fuel n 0 (true, XR.fin r0, XR.fin c0, balD n A k t) = _
    exact hF fuel hf true
  | succ p ih =>
    obtain ⟨b, k', F, hb, hF⟩ := ih (by omega)
    obtain ⟨b2, k2, F2, hb2, hF2⟩ := balanceRow_step (n := n) A t k' (p + 1) (by omega)
    refine ⟨b && b2, k2, max F F2, fun hbb => ?_, fun fuel hfu => ?_⟩
    · rw [Bool.and_eq_true] at hbb
      obtain ⟨rfl, h3⟩ := hb hbb.1
      rcases hb2 with ⟨-, rfl, h4⟩ | ⟨h4, -⟩
      · refine ⟨rfl, fun i h1 h2 => ?_⟩
        rcases Nat.lt_or_ge p i with h5 | h5
        · rw [show i = p + 1 by omega]
          exact h4
        · exact h3 i h1 h5
      · rw [h4] at hbb
        exact absurd hbb.2 (by simp)
    rw [forN_succ, hF fuel (le_trans (le_max_left _ _) hfu), ok_bind, hF2 fuel (le_trans (le_max_right _ _) hfu)]

theorem forN_first_ub {σ : Type} (p : ℕ) (f : ℕ → σ → Out σ) (s : σ) (h : f 0 s = ub) : forN (p + 1) f s = ub := by
  induction p with
  | zero =>
    rw [forN_succ]
    change (f 0 s) = ub
    exact h
  | succ p ih =>
    rw [forN_succ, ih]
    rfl

/-- A square matrix as a function of two natural numbers. -/
noncomputable def natExt (A : Matrix (Fin n) (Fin n) ℝ) : ℕ → ℕ → ℝ := fun a b => if h : a < n ∧ b < n then A ⟨a, h.1⟩ ⟨b, h.2⟩ else 0

theorem natExt_row (A : Matrix (Fin n) (Fin n) ℝ) {i : ℕ} (hi : i < n) :
    Bal.row n (fun i j => |natExt A i j|) (fun _ => 0) i = ∑ j, |A ⟨i, hi⟩ j| := by
  unfold Bal.row
  rw [← Fin.sum_univ_eq_sum_range fun j => Bal.E (fun i j => |natExt A i j|) (fun _ => 0) i j]
  refine Finset.sum_congr rfl fun j _ => ?_
  unfold Bal.E
  simp [natExt, hi]

theorem natExt_col (A : Matrix (Fin n) (Fin n) ℝ) {i : ℕ} (hi : i < n) :
    Bal.col n (fun i j => |natExt A i j|) (fun _ => 0) i = ∑ j, |A j ⟨i, hi⟩| := by
  unfold Bal.col
  rw [← Fin.sum_univ_eq_sum_range fun j => Bal.E (fun i j => |natExt A i j|) (fun _ => 0) j i]
  refine Finset.sum_congr rfl fun j _ => ?_
  unfold Bal.E
  simp [natExt, hi]

theorem natExt_data (A : Matrix (Fin n) (Fin n) ℝ) (u : List XR) : (mtxOf (A.map XR.fin) u).data = balD n (natExt A) (fun _ => 0) u := by
  rw [mtxOf_eq, mkM_data]
  unfold balD simD
  refine mkD_congr fun a ha b hb => ?_
  rw [ext_lt _ ha hb]
  simp [natExt, ha, hb]

/-- The run of `zsl_mtx_balance`, down to its loop. -/
theorem mtxBalance_run (junk : ℕ → XR) (A : Matrix (Fin n) (Fin n) ℝ) (B : Matrix (Fin n) (Fin n) XR) (t u : List XR)
    (r0 c0 : ℝ) (h0 : junk 0 = XR.fin r0) (h1 : junk 1 = XR.fin c0) (fuel : ℕ) : mtxBalance fuel junk (mat A t) (mtxOf B u) =
      (balanceLoop fuel n (XR.fin r0) (XR.fin c0) (balD n (natExt A) (fun _ => 0) u) >>= fun d =>
        pure (0, { mtxOf (A.map XR.fin) u with data := d })) := by
  unfold mtxBalance
  rw [if_neg (by simp), if_neg (by simp), if_neg (by simp), show mat A t = mtxOf (A.map XR.fin) t from rfl,
    mtx_copy_correct, ok_bind]
  dsimp only
  rw [if_neg (by simp), mtxOf_rows, h0, h1, natExt_data]

/-- C81. The exact condition for `zsl_mtx_balance` to return, when its uninitialised locals `row` and `col` hold any numbers `r0` and `c0`: the
two sums it forms from them over row 0 and column 0 are both positive, or one of them is zero. If so, it returns 0 and stores the input scaled
by powers of two, in which every row except perhaps the first is balanced with its column; otherwise it runs for ever. -/
theorem mtx_balance_returns_iff (junk : ℕ → XR) (A : Matrix (Fin n) (Fin n) ℝ) (B : Matrix (Fin n) (Fin n) XR)
    (t u : List XR) (hn : 0 < n) (r0 c0 : ℝ) (h0 : junk 0 = XR.fin r0) (h1 : junk 1 = XR.fin c0) :
    ((r0 + ∑ j, |A ⟨0, hn⟩ j| = 0 ∨ c0 + ∑ j, |A j ⟨0, hn⟩| = 0 ∨ 0 < r0 + ∑ j, |A ⟨0, hn⟩ j| ∧ 0 < c0 + ∑ j, |A j ⟨0, hn⟩|) →
      ∃ (N : Matrix (Fin n) (Fin n) ℝ) (k : Fin n → ℤ) (F : ℕ), (∀ i j, N i j = A i j * (2 : ℝ) ^ (k j - k i)) ∧
        (∀ i, i.val ≠ 0 → ∑ j, |N i j| = 0 ∨ ∑ j, |N j i| = 0 ∨
          3 * ∑ j, |N i j| ≤ 7 * ∑ j, |N j i| ∧ 3 * ∑ j, |N j i| ≤ 7 * ∑ j, |N i j|) ∧
        ∀ fuel, F ≤ fuel → mtxBalance fuel junk (mat A t) (mtxOf B u) = ok (0, mat N u)) ∧
    ((∃ fuel rc m', mtxBalance fuel junk (mat A t) (mtxOf B u) = ok (rc, m')) →
      r0 + ∑ j, |A ⟨0, hn⟩ j| = 0 ∨ c0 + ∑ j, |A j ⟨0, hn⟩| = 0 ∨ 0 < r0 + ∑ j, |A ⟨0, hn⟩ j| ∧ 0 < c0 + ∑ j, |A j ⟨0, hn⟩|) := by
  set G : ℕ → ℕ → ℝ := natExt A with hG
  have hrow := natExt_row A hn
  have hcol := natExt_col A hn
  have hrun := mtxBalance_run junk A B t u r0 c0 h0 h1
  obtain ⟨p, rfl⟩ : ∃ p, n = p + 1 := ⟨n - 1, by omega⟩
  constructor
  · intro hgood
    rw [← hrow, ← hcol] at hgood
    obtain ⟨b, k1, F1, hb1, hF1⟩ := balance_sweep_start (n := p + 1) G u (fun _ => 0) r0 c0 p le_rfl hgood
    obtain ⟨k, F2, hbal, -, hF2⟩ := balanceLoop_returns (n := p + 1) G u k1
    have hloop : ∃ (k : ℕ → ℤ) (F : ℕ),
        (∀ i, i ≠ 0 → i < p + 1 → Balanced (Bal.row (p + 1) (fun i j => |G i j|) k i) (Bal.col (p + 1) (fun i j => |G i j|) k i)) ∧ ∀ fuel, F ≤ fuel →
        balanceLoop fuel (p + 1) (XR.fin r0) (XR.fin c0) (balD (p + 1) G (fun _ => 0) u) = ok (balD (p + 1) G k u) := by
      cases b with
      | true =>
        obtain ⟨rfl, hb2⟩ := hb1 rfl
        refine ⟨fun _ => 0, F1 + 1, fun i h1 h2 => hb2 i h1 (by omega), fun fuel hfu => ?_⟩
        obtain ⟨fuel, rfl⟩ : ∃ f, fuel = f + 1 := ⟨fuel - 1, by omega⟩
        unfold balanceLoop
        rw [hF1 _ (by omega), ok_bind]
        rfl
      | false =>
        refine ⟨k, max F1 F2 + 1, fun i _ h2 => hbal i h2, fun fuel hfu => ?_⟩
        obtain ⟨fuel, rfl⟩ : ∃ f, fuel = f + 1 := ⟨fuel - 1, by omega⟩
        unfold balanceLoop
        rw [hF1 _ (by omega), ok_bind]
        exact hF2 fuel (by omega)
    obtain ⟨k, F, hk, hF⟩ := hloop
    have hE : ∀ i j : Fin (p + 1), |A i j * (2 : ℝ) ^ (k j - k i)| = Bal.E (fun i j => |G i j|) k i j := by
      intro i j
      unfold Bal.E
      rw [abs_mul, abs_of_nonneg (zpow_nonneg (by norm_num : (0 : ℝ) ≤ 2) _)]
      dsimp only
      rw [show G i j = A i j from dif_pos ⟨i.2, j.2⟩]
    refine ⟨Matrix.of fun i j => A i j * (2 : ℝ) ^ (k j - k i), fun i => k i, F, fun _ _ => rfl, fun i hi => ?_, fun fuel hfu => ?_⟩
    · have h2 := hk i hi i.2
      have hr : ∑ j, |A i j * (2 : ℝ) ^ (k j - k i)| = Bal.row (p + 1) (fun i j => |G i j|) k i := by
        unfold Bal.row
        rw [← Fin.sum_univ_eq_sum_range fun j => Bal.E (fun i j => |G i j|) k i j]
        exact Finset.sum_congr rfl fun j _ => hE i j
      have hc : ∑ j, |A j i * (2 : ℝ) ^ (k i - k j)| = Bal.col (p + 1) (fun i j => |G i j|) k i := by
        unfold Bal.col
        rw [← Fin.sum_univ_eq_sum_range fun j => Bal.E (fun i j => |G i j|) k j i]
        exact Finset.sum_congr rfl fun j _ => hE j i
      rw [← hr, ← hc] at h2
      exact h2
    rw [hrun, hF fuel hfu, ok_bind, pure_eq]
    congr 2
    have hres : balD (p + 1) G k u = (mat (Matrix.of fun i j => A i j * (2 : ℝ) ^ (k j - k i)) u).data := by
      unfold mat balD simD
      rw [mtxOf_eq, mkM_data]
      refine mkD_congr fun a ha b hb => ?_
      rw [ext_lt _ ha hb]
      simp only [hG, natExt, ha, hb, and_self, dif_pos, Matrix.map_apply, Matrix.of_apply]
      congr 1
      rw [mul_div_assoc, zpow_sub₀ (by norm_num)]
    rw [hres]
    rfl
  · rintro ⟨fuel, rc, m', hok⟩
    by_contra hbad
    rw [← hrow, ← hcol] at hbad
    rw [hrun] at hok
    have hub : balanceLoop fuel (p + 1) (XR.fin r0) (XR.fin c0) (balD (p + 1) G (fun _ => 0) u) = ub := by
      unfold balanceLoop
      cases fuel with
      | zero => rfl
      | succ fuel =>
        dsimp only
        rw [forN_first_ub p _ _ (balanceRow_hangs (n := p + 1) G u (fun _ => 0) 0 (by omega) r0 c0 hbad _ _)]
        rfl
    rw [hub] at hok
    cases hok

theorem goodSums_nonneg (A : Matrix (Fin n) (Fin n) ℝ) (hn : 0 < n) {r0 c0 : ℝ} (hr : 0 ≤ r0) (hc : 0 ≤ c0) :
    r0 + ∑ j, |A ⟨0, hn⟩ j| = 0 ∨ c0 + ∑ j, |A j ⟨0, hn⟩| = 0 ∨ 0 < r0 + ∑ j, |A ⟨0, hn⟩ j| ∧ 0 < c0 + ∑ j, |A j ⟨0, hn⟩| := by
  have h2 : 0 ≤ ∑ j, |A ⟨0, hn⟩ j| := Finset.sum_nonneg fun _ _ => abs_nonneg _
  have h3 : 0 ≤ ∑ j, |A j ⟨0, hn⟩| := Finset.sum_nonneg fun _ _ => abs_nonneg _
  rcases (add_nonneg hr h2).eq_or_lt with h4 | h4
  · exact Or.inl h4.symm
  · rcases (add_nonneg hc h3).eq_or_lt with h5 | h5
    · exact Or.inr (Or.inl h5.symm)
    · exact Or.inr (Or.inr ⟨h4, h5⟩)

/-- C81. In particular it returns for all non-negative contents of the locals. -/
theorem mtx_balance_returns_nonneg (junk : ℕ → XR) (A : Matrix (Fin n) (Fin n) ℝ) (B : Matrix (Fin n) (Fin n) XR)
    (t u : List XR) (hn : 0 < n) (r0 c0 : ℝ) (h0 : junk 0 = XR.fin r0) (h1 : junk 1 = XR.fin c0) (hr : 0 ≤ r0) (hc : 0 ≤ c0) :
    ∃ (N : Matrix (Fin n) (Fin n) ℝ) (k : Fin n → ℤ) (F : ℕ), (∀ i j, N i j = A i j * (2 : ℝ) ^ (k j - k i)) ∧
      (∀ i, i.val ≠ 0 → ∑ j, |N i j| = 0 ∨ ∑ j, |N j i| = 0 ∨
        3 * ∑ j, |N i j| ≤ 7 * ∑ j, |N j i| ∧ 3 * ∑ j, |N j i| ≤ 7 * ∑ j, |N i j|) ∧
      ∀ fuel, F ≤ fuel → mtxBalance fuel junk (mat A t) (mtxOf B u) = ok (0, mat N u) :=
  (mtx_balance_returns_iff junk A B t u hn r0 c0 h0 h1).1 (goodSums_nonneg A hn hr hc)

/-- C118. The eigenvalue function returns, for every iteration count, if the balancing step does. -/
theorem mtx_eigenvalues_returns_good (junk : ℕ → XR) (A : Matrix (Fin n) (Fin n) ℝ) (x : Fin n → XR) (t u : List XR)
    (hn : 0 < n) (hsz : n < SIZE_MOD) (r0 c0 : ℝ) (h0 : junk 0 = XR.fin r0) (h1 : junk 1 = XR.fin c0)
    (hg : r0 + ∑ j, |A ⟨0, hn⟩ j| = 0 ∨ c0 + ∑ j, |A j ⟨0, hn⟩| = 0 ∨ 0 < r0 + ∑ j, |A ⟨0, hn⟩ j| ∧ 0 < c0 + ∑ j, |A j ⟨0, hn⟩|) :
    ∃ F, ∀ fuel, F ≤ fuel → ∀ iter, ∃ rc v', mtxEigenvalues fuel junk (mat A t) (vecOf x u) iter = ok (rc, v') := by
  obtain ⟨U, hU⟩ := uninit_eq junk n n
  obtain ⟨N, k, F, -, -, hF⟩ := (mtx_balance_returns_iff junk A U t [] hn r0 c0 h0 h1).1 hg
  refine ⟨F, fun fuel hf iter => ?_⟩
  have hb : mtxBalance fuel junk (mat A t) (Mtx.uninit junk (mat A t).rows (mat A t).rows) = ok (0, mat N []) := by
    rw [mat_rows, hU]
    exact hF fuel hf
  obtain ⟨⟨rc, v'⟩, h, -⟩ := mtx_eigenvalues_safe fuel junk (mat A t) (vecOf x u) iter (mtxOf_wf _ _) (by simp [vecOf, Vec.WF, arrOf])
    (by simp [vecOf, arrOf]) (by simpa using hn) (by simpa using hsz) _ hb
  exact ⟨rc, v', h⟩

/-- C118. The eigenvalue function returns for exactly the same contents of the locals of the balancing step. -/
theorem mtx_eigenvalues_returns_iff (junk : ℕ → XR) (A : Matrix (Fin n) (Fin n) ℝ) (x : Fin n → XR) (t u : List XR) (iter : ℕ)
    (hn : 0 < n) (hsz : n < SIZE_MOD) (r0 c0 : ℝ) (h0 : junk 0 = XR.fin r0) (h1 : junk 1 = XR.fin c0) :
    (∃ fuel rc v', mtxEigenvalues fuel junk (mat A t) (vecOf x u) iter = ok (rc, v')) ↔
      (r0 + ∑ j, |A ⟨0, hn⟩ j| = 0 ∨ c0 + ∑ j, |A j ⟨0, hn⟩| = 0 ∨ 0 < r0 + ∑ j, |A ⟨0, hn⟩ j| ∧ 0 < c0 + ∑ j, |A j ⟨0, hn⟩|) := by
  obtain ⟨U, hU⟩ := uninit_eq junk n n
  have hiff := mtx_balance_returns_iff junk A U t [] hn r0 c0 h0 h1
  constructor
  · rintro ⟨fuel, rc, v', h⟩
    refine hiff.2 ?_
    unfold mtxEigenvalues at h
    rw [if_neg (by simp; omega)] at h
    simp only [mat_rows] at h
    cases hb : mtxBalance fuel junk (mat A t) (Mtx.uninit junk n n) with
    | ub =>
      rw [hb] at h
      cases h
    | ok bal => exact ⟨fuel, bal.1, bal.2, by rw [← hU]; exact hb⟩
  · intro hg
    obtain ⟨F, hF⟩ := mtx_eigenvalues_returns_good junk A x t u hn hsz r0 c0 h0 h1 hg
    obtain ⟨rc, v', h⟩ := hF F le_rfl iter
    exact ⟨F, rc, v', h⟩

/-- A row whose sum is within a factor of two of the sum of its column stays. -/
theorem balanceRow_keep (A : ℕ → ℕ → ℝ) (t : List XR) (k : ℕ → ℤ) (i : ℕ) (hi : i < n) (r0 c0 : ℝ)
    (h1 : r0 + Bal.row n (fun i j => |A i j|) k i ≤ 2 * (c0 + Bal.col n (fun i j => |A i j|) k i))
    (h2 : c0 + Bal.col n (fun i j => |A i j|) k i ≤ 2 * (r0 + Bal.row n (fun i j => |A i j|) k i)) (fuel : ℕ) (done : Bool) :
    balanceRow fuel n i (done, XR.fin r0, XR.fin c0, balD n A k t) = ok (done, XR.fin 0, XR.fin 0, balD n A k t) := by
  have hsum := balanceRow_sums (n := n) A t k i hi r0 c0
  set r := r0 + Bal.row n (fun i j => |A i j|) k i with hr
  set c := c0 + Bal.col n (fun i j => |A i j|) k i with hc
  unfold balanceRow
  simp only
  rw [hsum, ok_bind]
  simp only
  have e1 : (XR.fin r / lit 2 : XR) = XR.fin (r / 2) := by
    rw [XR.lit_eq, XR.fin_div (by norm_num), show (((2 : ℚ) : ℝ)) = 2 by norm_num]
  have e2 : (XR.fin r * lit 2 : XR) = XR.fin (r * 2) := by
    rw [XR.lit_eq, XR.fin_mul, show (((2 : ℚ) : ℝ)) = 2 by norm_num]
  have hup : balanceUp fuel (XR.fin r / lit 2) (XR.fin c) (lit 1) = ok (XR.fin c, lit 1) := by
    rw [e1]
    unfold balanceUp
    rw [if_neg (by simp; linarith)]
  have hdown : balanceDown fuel (XR.fin r * lit 2) (XR.fin c) (lit 1) = ok (XR.fin c, lit 1) := by
    rw [e2]
    unfold balanceDown
    rw [if_neg (by simp; linarith)]
  split
  · rw [hup, ok_bind]
    simp only
    rw [hdown, ok_bind]
    simp only
    rw [if_neg (by
      rw [XR.lit_eq, XR.lit_eq, XR.fin_add, XR.fin_div (by norm_num), XR.fin_mul]
      simp
      norm_num
      linarith)]
    simp
  · simp

/-- C137. A matrix in which the sums of every row and its column are within a factor of two of each other, those of the first row after adding
what the uninitialised locals hold, is stored as it is. -/
theorem mtx_balance_keeps (fuel : ℕ) (junk : ℕ → XR) (A : Matrix (Fin n) (Fin n) ℝ) (B : Matrix (Fin n) (Fin n) XR) (t u : List XR)
    (r0 c0 : ℝ) (h0 : junk 0 = XR.fin r0) (h1 : junk 1 = XR.fin c0) (hf : 0 < fuel)
    (h : ∀ i, (if i.val = 0 then r0 else 0) + ∑ j, |A i j| ≤ 2 * ((if i.val = 0 then c0 else 0) + ∑ j, |A j i|) ∧
      (if i.val = 0 then c0 else 0) + ∑ j, |A j i| ≤ 2 * ((if i.val = 0 then r0 else 0) + ∑ j, |A i j|)) (hn : 0 < n) :
    mtxBalance fuel junk (mat A t) (mtxOf B u) = ok (0, mat A u) := by
  obtain ⟨fuel, rfl⟩ : ∃ f, fuel = f + 1 := ⟨fuel - 1, by omega⟩
  have hsw : forN n (fun i s => balanceRow (fuel + 1) n i s) (true, XR.fin r0, XR.fin c0, balD n (natExt A) (fun _ => 0) u) =
      ok (true, XR.fin 0, XR.fin 0, balD n (natExt A) (fun _ => 0) u) := by
    rw [forN_eq (fun m => (true, XR.fin (if m = 0 then r0 else 0), XR.fin (if m = 0 then c0 else 0), balD n (natExt A) (fun _ => 0) u))]
    · rw [if_neg (by omega), if_neg (by omega)]
    · rfl
    · intro i hi
      rw [if_neg (Nat.succ_ne_zero i), if_neg (Nat.succ_ne_zero i)]
      have h2 := h ⟨i, hi⟩
      rw [← natExt_row A hi, ← natExt_col A hi] at h2
      exact balanceRow_keep _ _ _ i hi _ _ h2.1 h2.2 _ _
  rw [mtxBalance_run junk _ B t u r0 c0 h0 h1]
  unfold balanceLoop
  rw [hsw, ok_bind, ← natExt_data]
  rfl

/-- C137 fails for the first row: with 1000 in both locals the row (0, 8) with the column (0, 1) counts as balanced, and the matrix is stored as it
is. -/
theorem mtx_balance_first_row (junk : ℕ → XR) (h0 : junk 0 = XR.fin 1000) (h1 : junk 1 = XR.fin 1000) (t u : List XR)
    (B : Matrix (Fin 2) (Fin 2) XR) (fuel : ℕ) (hf : 0 < fuel) :
    mtxBalance fuel junk (mat !![0, 8; 1, 100] t) (mtxOf B u) = ok (0, mat !![0, 8; 1, 100] u) := by
  refine mtx_balance_keeps fuel junk _ B t u 1000 1000 h0 h1 hf (fun i => ?_) (by norm_num)
  fin_cases i <;> norm_num [Fin.sum_univ_two]

/-- With 7 in one local and 0 in the other balancing returns, with -7 and 1 it does not. -/
example (junk : ℕ → XR) (h0 : junk 0 = XR.fin 7) (h1 : junk 1 = XR.fin 0) : ∃ (N : Matrix (Fin 2) (Fin 2) ℝ) (F : ℕ), ∀ fuel, F ≤ fuel →
    mtxBalance fuel junk (mat !![1, 2; 3, 4] []) (mtxOf (fun (_ : Fin 2) (_ : Fin 2) => XR.nan) []) = ok (0, mat N []) := by
  obtain ⟨N, k, F, -, -, hF⟩ := mtx_balance_returns_nonneg junk !![1, 2; 3, 4] (fun _ _ => XR.nan) [] [] (by norm_num) 7 0 h0 h1
    (by norm_num) le_rfl
  exact ⟨N, F, hF⟩

example (junk : ℕ → XR) (h0 : junk 0 = XR.fin (-7)) (h1 : junk 1 = XR.fin 1) :
    ¬ ∃ fuel rc m', mtxBalance fuel junk (mat !![1, 2; 3, 4] []) (mtxOf (fun (_ : Fin 2) (_ : Fin 2) => XR.nan) []) = ok (rc, m') := by
  intro h
  have := (mtx_balance_returns_iff junk !![1, 2; 3, 4] (fun _ _ => XR.nan) [] [] (by norm_num) (-7) 1 h0 h1).2 h
  simp [Fin.sum_univ_two] at this
  norm_num at this

end Verif
