import Verif.Props.Calib3
import Verif.Props.Sort

/-!
# Calibration of the magnetometer by sphere and ellipsoid fitting (C110)
-/

namespace Verif

open Out Matrix

variable {n : ℕ}

/-! ## All values stay finite -/

/-- A buffer of finite values of the right length is a real matrix. -/
theorem mat_of_list {r c : ℕ} {d : List XR} (hl : d.length = r * c) (hf : ∀ x ∈ d, ∃ y : ℝ, x = XR.fin y) :
    ∃ A : Matrix (Fin r) (Fin c) ℝ, (⟨r, c, d⟩ : Mtx XR) = mat A [] := by
  choose! g hg using hf
  have hlt : ∀ (i : Fin r) (j : Fin c), i.val * c + j.val < d.length := by
    intro i j
    rw [hl]
    calc i.val * c + j.val < i.val * c + c := by omega
      _ = (i.val + 1) * c := by ring
      _ ≤ r * c := Nat.mul_le_mul_right _ i.2
  refine ⟨Matrix.of fun i j => g (d[i.val * c + j.val]'(hlt i j)), ?_⟩
  unfold mat mtxOf
  congr 1
  rw [List.append_nil]
  apply List.ext_getElem
  · simp [hl]
  · intro k h1 h2
    rw [List.getElem_ofFn, Matrix.map_apply, Matrix.of_apply, ← hg _ (List.getElem_mem _)]
    congr 1
    simp only [Fin.coe_divNat, Fin.coe_modNat]
    exact (Nat.div_add_mod' k c).symm

theorem mat_list {r c : ℕ} (A : Matrix (Fin r) (Fin c) ℝ) : (mat A []).data.length = r * c ∧ ∀ x ∈ (mat A []).data, ∃ y : ℝ, x = XR.fin y := by
  unfold mat mtxOf
  refine ⟨by simp, fun x hx => ?_⟩
  rw [List.append_nil, List.mem_ofFn] at hx
  obtain ⟨k, rfl⟩ := hx
  exact ⟨_, rfl⟩

/-- The inverse of a real matrix is computed without leaving the real numbers, whether it is exact or not. -/
theorem mtxInv_real (junk : ℕ → XR) (A B : Matrix (Fin n) (Fin n) ℝ) (hn : 0 < n) (h3 : n ≠ 3) :
    ∃ C : Matrix (Fin n) (Fin n) ℝ, mtxInv junk (mat A []) (mat B []) = ok (0, mat C []) := by
  obtain ⟨M₀, hM₀⟩ := uninit_eq junk n n
  have hcopy : mtxCopy (Mtx.uninit junk n n) (mat A []) = ok (0, mat A []) := by
    rw [hM₀]
    exact mtx_copy_correct _ _ _ _
  obtain ⟨M, N, -, hres⟩ := mtxGaussReduc_spec junk A 1 A [] [] [] hn (fun _ _ _ => True) trivial fun _ _ _ _ _ _ => trivial
  unfold mtxInv
  rw [if_neg (by simpa using h3), if_neg (by simp), if_neg (by simp), if_neg (by simp), if_neg (by simp; omega), mat_rows, mat_cols, hcopy,
    ok_bind]
  dsimp only
  rw [if_neg (by simp), mtx_init_identity_real, ok_bind]
  dsimp only
  obtain ⟨n', rfl⟩ := Nat.exists_eq_succ_of_ne_zero hn.ne'
  rw [if_neg (by simp), mtx_deter_correct, ok_bind]
  dsimp only
  split_ifs
  · exact ⟨1, rfl⟩
  · rw [hres, ok_bind]
    exact ⟨N, rfl⟩

theorem calDamp_real (l : ℝ) (A B : Matrix (Fin n) (Fin n) ℝ) :
    ∃ C : Matrix (Fin n) (Fin n) ℝ, calDamp n (XR.fin l) (mat A []) (mat B []) = ok (mat C []) := by
  have key : (forN n (fun k d => do
      let x ← rd (mat A []).data (k * (n + 1))
      wr d (k * (n + 1)) (XR.fin l * x)) (mat B []).data).sat fun (d : List XR) => d.length = n * n ∧ ∀ x ∈ d, ∃ y : ℝ, x = XR.fin y := by
    refine forN_sat (fun _ (d : List XR) => d.length = n * n ∧ ∀ x ∈ d, ∃ y : ℝ, x = XR.fin y) (mat_list B) ?_
    rintro k hk d ⟨hl, hf⟩
    have hlt : k * (n + 1) < n * n := by
      obtain ⟨m, rfl⟩ : ∃ m, n = m + 1 := ⟨n - 1, by omega⟩
      nlinarith
    obtain ⟨hA1, hA2⟩ := mat_list A
    rw [rd_lt (by rw [hA1]; exact hlt), ok_bind, wr_lt _ (by rw [hl]; exact hlt), sat_ok]
    obtain ⟨y, hy⟩ := hA2 _ (List.getElem_mem (by rw [hA1]; exact hlt))
    refine ⟨by simp [hl], fun x hx => ?_⟩
    rcases List.mem_or_eq_of_mem_set hx with h | h
    · exact hf x h
    · exact ⟨l * y, by rw [h, hy, XR.fin_mul]⟩
  obtain ⟨d, hd, h1, h2⟩ := key
  obtain ⟨C, hC⟩ := mat_of_list h1 h2
  refine ⟨C, ?_⟩
  unfold calDamp
  rw [hd, ok_bind, pure_eq, ← hC]
  rfl

/-- With a residual of zero a step changes nothing but the work matrix. -/
theorem calTau_zero (junk : ℕ → XR) (hn : 0 < n) (h3 : n ≠ 3) (l : ℝ) (J : Matrix (Fin 1) (Fin n) ℝ) (B : Matrix (Fin n) (Fin n) ℝ) :
    ∃ C : Matrix (Fin n) (Fin n) ℝ,
      calTau junk n (XR.fin l) (mat J []) (mat B []) (XR.fin 0) = ok (mat C [], mat (0 : Matrix (Fin n) (Fin 1) ℝ) []) := by
  obtain ⟨U1, hU1⟩ := uninit_eq junk n 1
  obtain ⟨U2, hU2⟩ := uninit_eq junk n n
  obtain ⟨D, hD⟩ := calDamp_real l (Jᵀ * J) B
  obtain ⟨C, hC⟩ := mtxInv_real junk (Jᵀ * J + D) D hn h3
  refine ⟨C, ?_⟩
  unfold calTau
  rw [hU1, mtx_trans_real _ _ _ _ _ hn, ok_bind]
  dsimp only
  rw [hU2, mtx_mult_correct, ok_bind]
  dsimp only
  rw [hD, ok_bind, (mtx_add_sub_d_correct _ _ _ _).1, ok_bind]
  dsimp only
  rw [hC, ok_bind]
  dsimp only
  rw [mtx_mult_correct, ok_bind]
  dsimp only
  rw [mtx_scalar_mult_correct, zero_smul]
  rfl

/-! ## The two models at the exact parameters -/

/-- The readings lie on the sphere with this centre and radius. -/
def OnSphere (P : Matrix (Fin n) (Fin 3) ℝ) (z : V3) (ρ : ℝ) : Prop := ∀ i, (P i - z) ⬝ᵥ (P i - z) = ρ ^ 2

variable {P : Matrix (Fin n) (Fin 3) ℝ} {z : V3} {ρ : ℝ}

theorem calFShp_sphere (junk : ℕ → XR) (h : OnSphere P z ρ) (hρ : 0 < ρ) (i : Fin n) (u : List XR) :
    calFShp junk (vec (P i) []) (vec (-z) u) = ok (XR.fin ρ) := by
  unfold calFShp
  rw [vecUninit_eq, vecAdd_vec, ok_bind]
  dsimp only
  rw [vecNorm_vec, ← sub_eq_add_neg, h i, Real.sqrt_sq hρ.le]

/-- The parameters of the sphere as an ellipsoid. -/
def sphereParm (z : V3) : Fin 9 → ℝ := ![1, 0, 0, 1, 0, 1, -z 0, -z 1, -z 2]

theorem calSym_sphere (z : V3) : calSym (arr (sphereParm z) []) = ok (mat (1 : Matrix (Fin 3) (Fin 3) ℝ) []).data := by
  have : (mat (1 : Matrix (Fin 3) (Fin 3) ℝ) []).data =
      [XR.fin 1, XR.fin 0, XR.fin 0, XR.fin 0, XR.fin 1, XR.fin 0, XR.fin 0, XR.fin 0, XR.fin 1] := by
    have e : (1 : Matrix (Fin 3) (Fin 3) ℝ) = !![1, 0, 0; 0, 1, 0; 0, 0, 1] := by
      ext i j
      fin_cases i <;> fin_cases j <;> rfl
    rw [e]
    rfl
  rw [this]
  rfl

theorem calFElli_sphere (junk : ℕ → XR) (h : OnSphere P z ρ) (hρ : 0 < ρ) (i : Fin n) :
    calFElli junk (vec (P i) []) (arr (sphereParm z) []) = ok (XR.fin ρ) := by
  obtain ⟨U, hU⟩ := uninit_eq junk 3 1
  have hr : ∀ k : Fin 3, rd (vec (P i) []).data k = ok (XR.fin (P i k)) := fun k => vec_rd (P i) [] k
  have h0 : rd (vec (P i) []).data 0 = ok (XR.fin (P i 0)) := hr 0
  have h1 : rd (vec (P i) []).data 1 = ok (XR.fin (P i 1)) := hr 1
  have h2 : rd (vec (P i) []).data 2 = ok (XR.fin (P i 2)) := hr 2
  have g6 : rd (arr (sphereParm z) []) 6 = ok (XR.fin (-z 0)) := rfl
  have g7 : rd (arr (sphereParm z) []) 7 = ok (XR.fin (-z 1)) := rfl
  have g8 : rd (arr (sphereParm z) []) 8 = ok (XR.fin (-z 2)) := rfl
  unfold calFElli
  rw [calSym_sphere, ok_bind, h0, ok_bind, h1, ok_bind, h2, ok_bind, g6, ok_bind, g7, ok_bind, g8, ok_bind]
  simp only [XR.fin_add]
  rw [show (⟨3, 3, (mat (1 : Matrix (Fin 3) (Fin 3) ℝ) []).data⟩ : Mtx XR) = mat (1 : Matrix (Fin 3) (Fin 3) ℝ) [] from rfl,
    show (⟨3, 1, [XR.fin (P i 0 + -z 0), XR.fin (P i 1 + -z 1), XR.fin (P i 2 + -z 2)]⟩ : Mtx XR) = mat (colOf (P i - z)) [] from rfl,
    hU, mtx_mult_correct, ok_bind]
  dsimp only
  rw [Matrix.one_mul, colOf_data, vecUninit_eq, vecFromArr_vec, ok_bind]
  dsimp only
  rw [vecNorm_vec, h i, Real.sqrt_sq hρ.le]

theorem calJacShp_sphere (junk : ℕ → XR) (h : OnSphere P z ρ) (hρ : 0 < ρ) (t u : List XR) :
    ∃ J : Fin 4 → ℝ, calJacShp junk (mat P t) (vec (-z) u) = ok (arr J []) := by
  have key : (calJacShp junk (mat P t) (vec (-z) u)).sat fun J => ∃ x : Fin 4 → ℝ, J = arr x [] := by
    unfold calJacShp
    rw [mat_rows]
    refine forN_sat (fun _ J => ∃ x : Fin 4 → ℝ, J = arr x []) ⟨0, by simp [arr]⟩ ?_
    rintro i hi J ⟨x, rfl⟩
    have hr : ∀ k : Fin 3, rd (vec (P ⟨i, hi⟩) []).data k = ok (XR.fin (P ⟨i, hi⟩ k)) := fun k => vec_rd _ [] k
    have hb : ∀ k : Fin 3, rd (vec (-z) u).data k = ok (XR.fin ((-z) k)) := fun k => vec_rd _ u k
    have h0 : rd (vec (P ⟨i, hi⟩) []).data 0 = ok (XR.fin (P ⟨i, hi⟩ 0)) := hr 0
    have h1 : rd (vec (P ⟨i, hi⟩) []).data 1 = ok (XR.fin (P ⟨i, hi⟩ 1)) := hr 1
    have h2 : rd (vec (P ⟨i, hi⟩) []).data 2 = ok (XR.fin (P ⟨i, hi⟩ 2)) := hr 2
    have b0 : rd (vec (-z) u).data 0 = ok (XR.fin ((-z) 0)) := hb 0
    have b1 : rd (vec (-z) u).data 1 = ok (XR.fin ((-z) 1)) := hb 1
    have b2 : rd (vec (-z) u).data 2 = ok (XR.fin ((-z) 2)) := hb 2
    have j0 : rd (arr x []) 0 = ok (XR.fin (x 0)) := rfl
    have j1 : rd (arr x []) 1 = ok (XR.fin (x 1)) := rfl
    have j2 : rd (arr x []) 2 = ok (XR.fin (x 2)) := rfl
    have j3 : rd (arr x []) 3 = ok (XR.fin (x 3)) := rfl
    rw [show calRow junk (mat P t) i = ok (vec (P ⟨i, hi⟩) []) from calRow_mat junk P t ⟨i, hi⟩, ok_bind, calFShp_sphere junk h hρ, ok_bind,
      h0, ok_bind, h1, ok_bind, h2, ok_bind, b0, ok_bind, b1, ok_bind, b2, ok_bind, j0, ok_bind, j1, ok_bind, j2, ok_bind, j3, ok_bind,
      pure_eq, sat_ok, XR.lit_eq]
    simp only [XR.fin_sub, XR.fin_neg, XR.fin_div hρ.ne', XR.fin_add]
    exact ⟨![_, _, _, _], rfl⟩
  obtain ⟨J, hJ, x, rfl⟩ := key
  exact ⟨x, hJ⟩

theorem calJacElli_sphere (junk : ℕ → XR) (h : OnSphere P z ρ) (hρ : 0 < ρ) (t u : List XR) :
    ∃ N : Fin 9 → ℝ, calJacElli junk (mat P t) (arr (sphereParm z) []) (vec (-z) u).data = ok (arr N []) := by
  have key : (calJacElli junk (mat P t) (arr (sphereParm z) []) (vec (-z) u).data).sat fun J => ∃ x : Fin 9 → ℝ, J = arr x [] := by
    unfold calJacElli
    rw [mat_rows]
    refine forN_sat (fun _ J => ∃ x : Fin 9 → ℝ, J = arr x []) ⟨0, by simp [arr, List.ofFn_succ]⟩ ?_
    rintro i hi J ⟨x, rfl⟩
    have hr : ∀ k : Fin 3, rd (vec (P ⟨i, hi⟩) []).data k = ok (XR.fin (P ⟨i, hi⟩ k)) := fun k => vec_rd _ [] k
    have hb : ∀ k : Fin 3, rd (vec (-z) u).data k = ok (XR.fin ((-z) k)) := fun k => vec_rd _ u k
    have h0 : rd (vec (P ⟨i, hi⟩) []).data 0 = ok (XR.fin (P ⟨i, hi⟩ 0)) := hr 0
    have h1 : rd (vec (P ⟨i, hi⟩) []).data 1 = ok (XR.fin (P ⟨i, hi⟩ 1)) := hr 1
    have h2 : rd (vec (P ⟨i, hi⟩) []).data 2 = ok (XR.fin (P ⟨i, hi⟩ 2)) := hr 2
    have b0 : rd (vec (-z) u).data 0 = ok (XR.fin ((-z) 0)) := hb 0
    have b1 : rd (vec (-z) u).data 1 = ok (XR.fin ((-z) 1)) := hb 1
    have b2 : rd (vec (-z) u).data 2 = ok (XR.fin ((-z) 2)) := hb 2
    have g0 : rd (arr (sphereParm z) []) 0 = ok (XR.fin 1) := rfl
    have g1 : rd (arr (sphereParm z) []) 1 = ok (XR.fin 0) := rfl
    have g2 : rd (arr (sphereParm z) []) 2 = ok (XR.fin 0) := rfl
    have g3 : rd (arr (sphereParm z) []) 3 = ok (XR.fin 1) := rfl
    have g4 : rd (arr (sphereParm z) []) 4 = ok (XR.fin 0) := rfl
    have g5 : rd (arr (sphereParm z) []) 5 = ok (XR.fin 1) := rfl
    have j0 : rd (arr x []) 0 = ok (XR.fin (x 0)) := rfl
    have j1 : rd (arr x []) 1 = ok (XR.fin (x 1)) := rfl
    have j2 : rd (arr x []) 2 = ok (XR.fin (x 2)) := rfl
    have j3 : rd (arr x []) 3 = ok (XR.fin (x 3)) := rfl
    have j4 : rd (arr x []) 4 = ok (XR.fin (x 4)) := rfl
    have j5 : rd (arr x []) 5 = ok (XR.fin (x 5)) := rfl
    have j6 : rd (arr x []) 6 = ok (XR.fin (x 6)) := rfl
    have j7 : rd (arr x []) 7 = ok (XR.fin (x 7)) := rfl
    have j8 : rd (arr x []) 8 = ok (XR.fin (x 8)) := rfl
    rw [show calRow junk (mat P t) i = ok (vec (P ⟨i, hi⟩) []) from calRow_mat junk P t ⟨i, hi⟩, ok_bind, calFElli_sphere junk h hρ, ok_bind,
      h0, ok_bind, h1, ok_bind, h2, ok_bind, b0, ok_bind, b1, ok_bind, b2, ok_bind, g0, ok_bind, g1, ok_bind, g2, ok_bind, g3, ok_bind,
      g4, ok_bind, g5, ok_bind]
    dsimp only
    rw [j0, ok_bind, j1, ok_bind, j2, ok_bind, j3, ok_bind, j4, ok_bind, j5, ok_bind, j6, ok_bind, j7, ok_bind, j8, ok_bind, pure_eq, sat_ok]
    simp only [XR.fin_neg, XR.fin_mul, XR.fin_add, XR.fin_div hρ.ne']
    exact ⟨![_, _, _, _, _, _, _, _, _], rfl⟩
  obtain ⟨J, hJ, x, rfl⟩ := key
  exact ⟨x, hJ⟩

/-! ## The starting point -/

theorem ends_of_sorted {l : List ℝ} (hs : l.Pairwise (· ≤ ·)) {a b : ℝ} (ha : a ∈ l) (hb : b ∈ l) (hlo : ∀ x ∈ l, a ≤ x) (hhi : ∀ x ∈ l, x ≤ b) :
    l[0]? = some a ∧ l[l.length - 1]? = some b := by
  have hne : l ≠ [] := List.ne_nil_of_mem ha
  have hpos : 0 < l.length := List.length_pos_iff.2 hne
  constructor
  · rw [List.getElem?_eq_getElem hpos]
    congr 1
    apply le_antisymm
    · obtain ⟨i, hi, rfl⟩ := List.getElem_of_mem ha
      rcases Nat.eq_zero_or_pos i with rfl | h
      · exact le_rfl
      · exact List.pairwise_iff_getElem.1 hs 0 i hpos hi h
    · exact hlo _ (List.getElem_mem _)
  · rw [List.getElem?_eq_getElem (by omega)]
    congr 1
    apply le_antisymm
    · exact hhi _ (List.getElem_mem _)
    · obtain ⟨i, hi, rfl⟩ := List.getElem_of_mem hb
      rcases Nat.lt_or_ge i (l.length - 1) with h | h
      · exact List.pairwise_iff_getElem.1 hs i _ hi (by omega) h
      · have : i = l.length - 1 := by omega
        subst this
        exact le_rfl

/-- Every axis has a reading at each end of the sphere. -/
def Extremes (P : Matrix (Fin n) (Fin 3) ℝ) (z : V3) (ρ : ℝ) : Prop := ∀ k, (∃ i, P i k = z k + ρ) ∧ ∃ i, P i k = z k - ρ

theorem OnSphere.bound (h : OnSphere P z ρ) (hρ : 0 < ρ) (i : Fin n) (k : Fin 3) : z k - ρ ≤ P i k ∧ P i k ≤ z k + ρ := by
  have h1 := h i
  rw [dotProduct, Fin.sum_univ_three] at h1
  simp only [Pi.sub_apply] at h1
  have hk : (P i k - z k) ^ 2 ≤ ρ ^ 2 := by
    rw [← h1]
    fin_cases k <;> simp <;>
      nlinarith [sq_nonneg (P i 0 - z 0), sq_nonneg (P i 1 - z 1), sq_nonneg (P i 2 - z 2)]
  have := abs_le_of_sq_le_sq' hk hρ.le
  constructor <;> linarith [this.1, this.2]

theorem calCentre_sphere (junk : ℕ → XR) (h : OnSphere P z ρ) (hρ : 0 < ρ) (he : Extremes P z ρ) (fuel : ℕ) (extra : List XR) (hn : 1 ≤ n)
    (hfuel : 2 * n ≤ fuel) (hsz : n + extra.length < SIZE_MOD) (hsep : ∀ k, Separated (List.ofFn fun i => P i k)) (hex : extra ≠ [])
    (b : Fin 3 → XR) (t u : List XR) :
    calCentre fuel extra junk (mat P t) (vecOf b u) = ok ((vec (-z) u).data, XR.fin (3 * ρ)) := by
  have step : ∀ (k : Fin 3) (v w : Fin n → XR), ∃ (w' : Fin n → XR),
      mtxGetCol (mat P t) k (arrOf v []) = ok (0, arr (fun i => P i k) []) ∧
      vecSort fuel extra ⟨n, arr (fun i => P i k) []⟩ ⟨n, arrOf w []⟩ = ok (0, ⟨n, arrOf w' []⟩) ∧
      rd (arrOf w' []) (szSub n 1) = ok (XR.fin (z k + ρ)) ∧ rd (arrOf w' []) 0 = ok (XR.fin (z k - ρ)) := by
    intro k v w
    obtain ⟨l, hp, hs, hsort⟩ := vec_sort_partial (vec (fun i => P i k) []) ⟨n, arrOf w []⟩ (fun i => P i k) extra fuel (vec_is _ _) hn
      (by simp [arrOf]) hfuel hsz (hsep k) (Or.inl hex)
    have hlen : l.length = n := by rw [hp.length_eq, List.length_ofFn]
    have hmem : ∀ x, x ∈ l ↔ ∃ i, P i k = x := by
      intro x
      rw [hp.mem_iff, List.mem_ofFn]
    obtain ⟨h1, h2⟩ := ends_of_sorted hs (a := z k - ρ) (b := z k + ρ) ((hmem _).2 (he k).2) ((hmem _).2 (he k).1)
      (fun x hx => by obtain ⟨i, rfl⟩ := (hmem x).1 hx; exact (h.bound hρ i k).1)
      (fun x hx => by obtain ⟨i, rfl⟩ := (hmem x).1 hx; exact (h.bound hρ i k).2)
    have hl : l.map XR.fin ++ (arrOf w []).drop n = arrOf (fun i : Fin n => XR.fin (l[i.val]'(by omega))) [] := by
      rw [show (arrOf w []).drop n = [] by simp [arrOf]]
      unfold arrOf
      congr 1
      apply List.ext_getElem
      · simp [hlen]
      · intro i h1 h2
        simp
    refine ⟨fun i => XR.fin (l[i.val]'(by omega)), mat_getCol P t v [] k, ?_, ?_, ?_⟩
    · rw [← hl]
      exact hsort
    · rw [← hl]
      apply rd_of
      rw [show szSub n 1 = n - 1 by unfold szSub; rw [if_pos hn], List.getElem?_append_left (by simp [hlen]; omega), List.getElem?_map, ← hlen, h2]
      rfl
    · rw [← hl]
      apply rd_of
      rw [List.getElem?_append_left (by simp [hlen]; omega), List.getElem?_map, h1]
      rfl
  obtain ⟨w0, a0, b0, c0, d0⟩ := step 0 (fun i => junk i) (fun i => junk i)
  obtain ⟨w1, a1, b1, c1, d1⟩ := step 1 (fun i => XR.fin (P i 0)) w0
  obtain ⟨w2, a2, b2, c2, d2⟩ := step 2 (fun i => XR.fin (P i 1)) w1
  have e1 : ∀ k : Fin 3, -(XR.fin (z k + ρ) + XR.fin (z k - ρ)) / lit 2 = XR.fin (-z k) := by
    intro k
    rw [lit_two, XR.fin_add, XR.fin_neg, XR.fin_div (by norm_num)]
    congr 1
    ring
  have e2 : ∀ k : Fin 3, (XR.fin (z k + ρ) - XR.fin (z k - ρ)) / lit 2 = XR.fin ρ := by
    intro k
    rw [lit_two, XR.fin_sub, XR.fin_div (by norm_num)]
    congr 1
    ring
  replace a0 : mtxGetCol (mat P t) 0 (arrOf (fun i : Fin n => junk i) []) = ok (0, arr (fun i => P i 0) []) := a0
  replace a1 : mtxGetCol (mat P t) 1 (arr (fun i => P i 0) []) = ok (0, arr (fun i => P i 1) []) := a1
  replace a2 : mtxGetCol (mat P t) 2 (arr (fun i => P i 1) []) = ok (0, arr (fun i => P i 2) []) := a2
  have hb : (vecOf b u).data = b 0 :: b 1 :: b 2 :: u := rfl
  have v0 : wr (b 0 :: b 1 :: b 2 :: u) 0 (XR.fin (-z 0)) = ok (XR.fin (-z 0) :: b 1 :: b 2 :: u) := rfl
  have v1 : wr (XR.fin (-z 0) :: b 1 :: b 2 :: u) 1 (XR.fin (-z 1)) = ok (XR.fin (-z 0) :: XR.fin (-z 1) :: b 2 :: u) := rfl
  have v2 : wr (XR.fin (-z 0) :: XR.fin (-z 1) :: b 2 :: u) 2 (XR.fin (-z 2)) = ok (XR.fin (-z 0) :: XR.fin (-z 1) :: XR.fin (-z 2) :: u) := rfl
  unfold calCentre
  simp only [mat_rows]
  rw [forN_succ, forN_succ, forN_succ, forN_zero, ok_bind, junkArr_eq, hb]
  dsimp only
  rw [a0, ok_bind]
  dsimp only
  rw [b0, ok_bind]
  dsimp only
  rw [c0, ok_bind, d0, ok_bind, e1, e2, v0, ok_bind, pure_eq, ok_bind]
  dsimp only
  rw [a1, ok_bind]
  dsimp only
  rw [b1, ok_bind]
  dsimp only
  rw [c1, ok_bind, d1, ok_bind, e1, e2, v1, ok_bind, pure_eq, ok_bind]
  dsimp only
  rw [a2, ok_bind]
  dsimp only
  rw [b2, ok_bind]
  dsimp only
  rw [c2, ok_bind, d2, ok_bind, e1, e2, v2, ok_bind, pure_eq, ok_bind, pure_eq, lit_zero, XR.fin_add, XR.fin_add, XR.fin_add]
  refine congrArg ok (Prod.ext rfl ?_)
  dsimp only
  congr 1
  ring

/-! ## The fits stay at the exact parameters -/

theorem calLambda_zero (j : ℕ) (l mu : ℝ) : calLambda j (XR.fin 0) (XR.fin (ρ - ρ)) (XR.fin l) (XR.fin mu) = (XR.fin 0, XR.fin (l * mu)) := by
  unfold calLambda
  rw [XR.ofNat_eq, XR.ofNat_eq, XR.fin_mul, XR.fin_mul, XR.fin_add, XR.fin_div (by positivity)]
  dsimp only
  rw [show (0 * (j : ℝ) + (ρ - ρ) * (ρ - ρ)) / ((j + 1 : ℕ) : ℝ) = 0 by rw [sub_self]; simp, if_neg (by simp), XR.fin_mul]

theorem calSphere_sphere (junk : ℕ → XR) (h : OnSphere P z ρ) (hρ : 0 < ρ) (l mu : ℝ) (t u : List XR) (A : Matrix (Fin 4) (Fin 4) ℝ)
    (j : ℕ) (hj : j < n) : ∃ C : Matrix (Fin 4) (Fin 4) ℝ,
    calSphere junk (mat P t) (XR.fin mu) j ⟨XR.fin ρ, (vec (-z) u).data, XR.fin l, XR.fin 0, mat A []⟩ =
      ok ⟨XR.fin ρ, (vec (-z) u).data, XR.fin (if j + 1 < n then l * mu else l), XR.fin 0, mat C []⟩ := by
  obtain ⟨J, hJ⟩ := calJacShp_sphere junk h hρ t u
  obtain ⟨C, hC⟩ := calTau_zero junk (n := 4) (by omega) (by omega) l (Matrix.of fun _ => J) A
  refine ⟨C, ?_⟩
  have hb : (vec (-z) u).data = XR.fin (-z 0) :: XR.fin (-z 1) :: XR.fin (-z 2) :: u := rfl
  have hsz : szSub n 1 = n - 1 := by unfold szSub; rw [if_pos (by omega)]
  have hd : (mat (0 : Matrix (Fin 4) (Fin 1) ℝ) []).data = [XR.fin 0, XR.fin 0, XR.fin 0, XR.fin 0] := rfl
  unfold calSphere
  dsimp only
  rw [show (⟨3, (vec (-z) u).data⟩ : Vec XR) = vec (-z) u from rfl, hJ, ok_bind,
    show calRow junk (mat P t) j = ok (vec (P ⟨j, hj⟩) []) from calRow_mat junk P t ⟨j, hj⟩, ok_bind, calFShp_sphere junk h hρ, ok_bind,
    XR.fin_sub, XR.fin_neg, sub_self, neg_zero, show (⟨1, 4, arr J []⟩ : Mtx XR) = mat (Matrix.of fun _ => J) [] from rfl, hC, ok_bind]
  dsimp only
  rw [hd, show rd [XR.fin 0, XR.fin 0, XR.fin 0, XR.fin 0] 0 = ok (XR.fin 0) from rfl,
    show rd [XR.fin 0, XR.fin 0, XR.fin 0, XR.fin 0] 1 = ok (XR.fin 0) from rfl,
    show rd [XR.fin 0, XR.fin 0, XR.fin 0, XR.fin 0] 2 = ok (XR.fin 0) from rfl,
    show rd [XR.fin 0, XR.fin 0, XR.fin 0, XR.fin 0] 3 = ok (XR.fin 0) from rfl, ok_bind, ok_bind, ok_bind, ok_bind, hb,
    show rd (XR.fin (-z 0) :: XR.fin (-z 1) :: XR.fin (-z 2) :: u) 0 = ok (XR.fin (-z 0)) from rfl,
    show rd (XR.fin (-z 0) :: XR.fin (-z 1) :: XR.fin (-z 2) :: u) 1 = ok (XR.fin (-z 1)) from rfl,
    show rd (XR.fin (-z 0) :: XR.fin (-z 1) :: XR.fin (-z 2) :: u) 2 = ok (XR.fin (-z 2)) from rfl, ok_bind, ok_bind, ok_bind]
  simp only [XR.fin_add, add_zero]
  rw [show wr (XR.fin (-z 0) :: XR.fin (-z 1) :: XR.fin (-z 2) :: u) 0 (XR.fin (-z 0)) = ok (vec (-z) u).data from rfl, ok_bind,
    show wr (vec (-z) u).data 1 (XR.fin (-z 1)) = ok (vec (-z) u).data from rfl, ok_bind,
    show wr (vec (-z) u).data 2 (XR.fin (-z 2)) = ok (vec (-z) u).data from rfl, ok_bind, mat_rows, hsz]
  by_cases hlast : j + 1 < n
  · rw [if_pos (by omega), if_pos hlast,
      show calRow junk (mat P t) (j + 1) = ok (vec (P ⟨j + 1, hlast⟩) []) from calRow_mat junk P t ⟨j + 1, hlast⟩, ok_bind,
      show (⟨3, (vec (-z) u).data⟩ : Vec XR) = vec (-z) u from rfl, calFShp_sphere junk h hρ, ok_bind, XR.fin_sub, calLambda_zero]
    rfl
  · rw [if_neg (by omega), if_neg hlast]
    rfl

theorem addZero_loop {m : ℕ} (x : Fin m → ℝ) :
    forN m (fun k d => do
      let x ← rd d k
      let y ← rd (mat (0 : Matrix (Fin m) (Fin 1) ℝ) []).data k
      wr d k (x + y)) (arr x []) = ok (arr x []) := by
  refine forN_eq (fun _ => arr x []) rfl fun k hk => ?_
  have hlen : k < (arr x []).length := by simp [arr, hk]
  have h1 : rd (arr x []) k = ok (XR.fin (x ⟨k, hk⟩)) := arrOf_rd _ [] hk
  have h2 := mat_col_rd (0 : Matrix (Fin m) (Fin 1) ℝ) [] ⟨k, hk⟩
  rw [Matrix.zero_apply] at h2
  dsimp only at h2
  rw [h1, ok_bind, h2, ok_bind, XR.fin_add, add_zero, wr_lt _ hlen]
  congr 1
  have : XR.fin (x ⟨k, hk⟩) = (arr x [])[k] := by simp [arr]
  rw [this, List.set_getElem_self]

theorem calEllipsoid_sphere (junk : ℕ → XR) (h : OnSphere P z ρ) (hρ : 0 < ρ) (l mu : ℝ) (t u : List XR) (A : Matrix (Fin 9) (Fin 9) ℝ)
    (j : ℕ) (hj : j < n) : ∃ C : Matrix (Fin 9) (Fin 9) ℝ,
    calEllipsoid junk (mat P t) (XR.fin mu) (vec (-z) u).data j ⟨XR.fin ρ, arr (sphereParm z) [], XR.fin l, XR.fin 0, mat A []⟩ =
      ok ⟨XR.fin ρ, arr (sphereParm z) [], XR.fin (if j + 1 < n then l * mu else l), XR.fin 0, mat C []⟩ := by
  obtain ⟨J, hJ⟩ := calJacElli_sphere junk h hρ t u
  obtain ⟨C, hC⟩ := calTau_zero junk (n := 9) (by omega) (by omega) l (Matrix.of fun _ => J) A
  refine ⟨C, ?_⟩
  have hsz : szSub n 1 = n - 1 := by unfold szSub; rw [if_pos (by omega)]
  have hJm : (⟨1, 9, arr J []⟩ : Mtx XR) = mat (Matrix.of fun _ => J) [] := rfl
  have hloop := addZero_loop (sphereParm z)
  unfold calEllipsoid
  dsimp only
  rw [hJ, ok_bind,
    show calRow junk (mat P t) j = ok (vec (P ⟨j, hj⟩) []) from calRow_mat junk P t ⟨j, hj⟩, ok_bind, calFElli_sphere junk h hρ, ok_bind,
    XR.fin_sub, XR.fin_neg, sub_self, neg_zero, hJm, hC, ok_bind]
  dsimp only
  rw [hloop, ok_bind, mat_rows, hsz]
  by_cases hlast : j + 1 < n
  · rw [if_pos (by omega), if_pos hlast,
      show calRow junk (mat P t) (j + 1) = ok (vec (P ⟨j + 1, hlast⟩) []) from calRow_mat junk P t ⟨j + 1, hlast⟩, ok_bind,
      calFElli_sphere junk h hρ, ok_bind, XR.fin_sub, calLambda_zero]
    rfl
  · rw [if_neg (by omega), if_neg hlast]
    rfl

theorem identity_of {m : ℕ} (A : Matrix (Fin m) (Fin m) XR) (t : List XR) :
    mtxInit (mtxOf A t) (some entryFnIdentity) = ok (0, mat (1 : Matrix (Fin m) (Fin m) ℝ) t) := by
  rw [mtx_init_identity]
  refine congrArg (fun M => ok ((0 : ℤ), mtxOf M t)) ?_
  ext i j
  rw [Matrix.of_apply, Matrix.map_apply, Matrix.one_apply]
  by_cases hij : i = j
  · simp [hij]
  · rw [if_neg (by rw [Fin.ext_iff] at hij; exact hij), if_neg hij, lit_zero]

/-- Copying the beginning of a buffer onto itself. -/
theorem copy_same {m : ℕ} (xs d : List XR) (hm : xs.length = m) (hp : xs <+: d) :
    forN m (fun i d => do
      let x ← rd xs i
      wr d i x) d = ok d := by
  refine forN_eq (fun _ => d) rfl fun k hk => ?_
  have hlt : k < d.length := lt_of_lt_of_le (by omega) hp.length_le
  rw [rd_lt (by omega), ok_bind, wr_lt _ hlt, hp.getElem (by omega), List.set_getElem_self]

/-- C110, part: for readings on a sphere that include the ends of all three axes the soft iron matrix is the identity and the hard iron vector
the negated centre. `*l` is multiplied with `mu` for every reading after the first. Missing: readings without the ends of the axes, readings
that are not on a sphere, and columns for which the sorting used inside is not exact (see C12). -/
theorem cal_magn_sphere_partial (junk : ℕ → XR) (h : OnSphere P z ρ) (hρ : 0 < ρ) (he : Extremes P z ρ) (fuel : ℕ) (extra : List XR)
    (hn : 1 ≤ n) (hfuel : 2 * n ≤ fuel) (hsz : n + extra.length < SIZE_MOD) (hsep : ∀ k, Separated (List.ofFn fun i => P i k))
    (hex : extra ≠ []) (l mu : ℝ) (hmu : 1 ≤ mu) (K : Matrix (Fin 3) (Fin 3) XR) (b : Fin 3 → XR) (t w u : List XR) :
    calMagn fuel extra junk (mat P t) (XR.fin l) (XR.fin mu) (mtxOf K w) (vecOf b u) =
      ok (0, XR.fin (l * mu ^ (n - 1)), mat (1 : Matrix (Fin 3) (Fin 3) ℝ) w, vec (-z) u) := by
  obtain ⟨U4, hU4⟩ := uninit_eq junk 4 4
  obtain ⟨U9, hU9⟩ := uninit_eq junk 9 9
  have hid4 : mtxInit (mtxOf U4 []) (some entryFnIdentity) = ok (0, mat (1 : Matrix (Fin 4) (Fin 4) ℝ) []) := identity_of U4 []
  have hid9 : mtxInit (mtxOf U9 []) (some entryFnIdentity) = ok (0, mat (1 : Matrix (Fin 9) (Fin 9) ℝ) []) := identity_of U9 []
  have hid3 : mtxInit (mtxOf K w) (some entryFnIdentity) = ok (0, mat (1 : Matrix (Fin 3) (Fin 3) ℝ) w) := identity_of K w
  have hpow : ∀ j, (if j + 1 < n then l * mu ^ (min j (n - 1)) * mu else l * mu ^ (min j (n - 1))) = l * mu ^ (min (j + 1) (n - 1)) := by
    intro j
    split_ifs with hj
    · rw [min_eq_left (by omega), min_eq_left (by omega), pow_succ, mul_assoc]
    · rw [min_eq_right (by omega), min_eq_right (by omega)]
  have s1 : (forN n (fun j s => calSphere junk (mat P t) (XR.fin mu) j s)
      ⟨XR.fin ρ, (vec (-z) u).data, XR.fin l, XR.fin 0, mat (1 : Matrix (Fin 4) (Fin 4) ℝ) []⟩).sat fun (s : CalFit XR) => ∃ C : Matrix (Fin 4) (Fin 4) ℝ,
        s = ⟨XR.fin ρ, (vec (-z) u).data, XR.fin (l * mu ^ (min n (n - 1))), XR.fin 0, mat C []⟩ := by
    refine forN_sat (fun j (s : CalFit XR) => ∃ C : Matrix (Fin 4) (Fin 4) ℝ,
        s = ⟨XR.fin ρ, (vec (-z) u).data, XR.fin (l * mu ^ (min j (n - 1))), XR.fin 0, mat C []⟩) ⟨1, by simp⟩ ?_
    rintro j hj s ⟨A, rfl⟩
    obtain ⟨C, hC⟩ := calSphere_sphere junk h hρ (l * mu ^ (min j (n - 1))) mu t u A j hj
    rw [hC, sat_ok, hpow]
    exact ⟨C, rfl⟩
  have s2 : (forN n (fun j e => calEllipsoid junk (mat P t) (XR.fin mu) (vec (-z) u).data j e)
      ⟨XR.fin ρ, arr (sphereParm z) [], XR.fin l, XR.fin 0, mat (1 : Matrix (Fin 9) (Fin 9) ℝ) []⟩).sat fun (s : CalFit XR) => ∃ C : Matrix (Fin 9) (Fin 9) ℝ,
        s = ⟨XR.fin ρ, arr (sphereParm z) [], XR.fin (l * mu ^ (min n (n - 1))), XR.fin 0, mat C []⟩ := by
    refine forN_sat (fun j (s : CalFit XR) => ∃ C : Matrix (Fin 9) (Fin 9) ℝ,
        s = ⟨XR.fin ρ, arr (sphereParm z) [], XR.fin (l * mu ^ (min j (n - 1))), XR.fin 0, mat C []⟩) ⟨1, by simp⟩ ?_
    rintro j hj s ⟨A, rfl⟩
    obtain ⟨C, hC⟩ := calEllipsoid_sphere junk h hρ (l * mu ^ (min j (n - 1))) mu t u A j hj
    rw [hC, sat_ok, hpow]
    exact ⟨C, rfl⟩
  obtain ⟨_, h1, C1, rfl⟩ := s1
  obtain ⟨_, h2, C2, rfl⟩ := s2
  rw [min_eq_right (by omega)] at h1 h2
  have hm3 : XR.fin (3 * ρ) / lit 3 = XR.fin ρ := by
    rw [XR.lit_eq, XR.fin_div (by norm_num)]
    refine congrArg XR.fin ?_
    push_cast
    field_simp
  have hg : [(lit 1 : XR), lit 0, lit 0, lit 1, lit 0, lit 1, XR.fin (-z 0), XR.fin (-z 1), XR.fin (-z 2)] = arr (sphereParm z) [] := by
    rw [lit_zero, show (lit 1 : XR) = XR.fin 1 by simp]
    rfl
  have hK : forN 9 (fun i d => do
      let x ← rd (mat (1 : Matrix (Fin 3) (Fin 3) ℝ) []).data i
      wr d i x) (mat (1 : Matrix (Fin 3) (Fin 3) ℝ) w).data = ok (mat (1 : Matrix (Fin 3) (Fin 3) ℝ) w).data := by
    refine copy_same _ _ (by unfold mat mtxOf; simp) ?_
    unfold mat mtxOf
    simp
  unfold calMagn
  rw [if_neg (by simp [hmu]), if_neg (by simp; omega), calCentre_sphere junk h hρ he fuel extra hn hfuel hsz hsep hex, ok_bind]
  dsimp only
  rw [hU4, hid4, ok_bind]
  dsimp only
  rw [hm3, lit_zero, mat_rows]
  refine Eq.trans (congrArg (fun x => x >>= _) h1) ?_
  rw [ok_bind, hid3, ok_bind]
  dsimp only
  rw [show rd (vec (-z) u).data 0 = ok (XR.fin (-z 0)) from rfl, show rd (vec (-z) u).data 1 = ok (XR.fin (-z 1)) from rfl,
    show rd (vec (-z) u).data 2 = ok (XR.fin (-z 2)) from rfl, ok_bind, ok_bind, ok_bind, hU9, hid9, ok_bind]
  dsimp only
  rw [← lit_zero, hg, lit_zero]
  refine Eq.trans (congrArg (fun x => x >>= _) h2) ?_
  rw [ok_bind]
  dsimp only
  rw [calSym_sphere, ok_bind, hK, ok_bind]
  rfl

/-- C110: wrong shapes and a factor below 1 are refused without writing. -/
theorem cal_magn_rejects {R : Type} [CReal R] (fuel : ℕ) (extra : List R) (junk : ℕ → R) (m : Mtx R) (l mu : R) (K : Mtx R) (b : Vec R)
    (h : m.cols ≠ 3 ∨ K.rows ≠ 3 ∨ K.cols ≠ 3 ∨ b.sz ≠ 3 ∨ CReal.lt mu (lit 1) = true) :
    calMagn fuel extra junk m l mu K b = ok (-EINVAL, l, K, b) := by
  unfold calMagn
  rw [if_pos h]

/-- C110: a data set without readings is not refused; arrays of no elements are declared. -/
theorem cal_magn_empty {R : Type} [CReal R] (fuel : ℕ) (extra : List R) (junk : ℕ → R) (m : Mtx R) (l mu : R) (K : Mtx R) (b : Vec R)
    (h : m.cols = 3) (h1 : K.rows = 3) (h2 : K.cols = 3) (h3 : b.sz = 3) (h4 : CReal.lt mu (lit 1) = false) (h0 : m.rows = 0) :
    calMagn fuel extra junk m l mu K b = ub := by
  unfold calMagn
  rw [if_neg (by simp [h, h1, h2, h3, h4]), if_pos h0]

theorem bind_inv {α β : Type} {x : Out α} {f : α → Out β} {b : β} (h : x >>= f = ok b) : ∃ a, x = ok a ∧ f a = ok b := by
  cases x with
  | ok a => exact ⟨a, rfl, h⟩
  | ub => exact absurd h (by simp [Bind.bind, Out.bind])

theorem copy_prefix {R : Type} {m : ℕ} (xs d d' : List R) (hm : xs.length = m)
    (h : forN m (fun i d => do
      let x ← rd xs i
      wr d i x) d = ok d') : d' = xs ++ d.drop m := by
  by_cases hl : m ≤ d.length
  · have := forN_write (f := fun i d => do
      let x ← rd xs i
      wr d i x) xs hm hl (fun i hi t _ => by
        rw [rd_lt (by omega), ok_bind])
    rw [this] at h
    exact (Out.ok.inj h).symm
  · exfalso
    have key : ∀ k, k ≤ m → ∀ e, forN k (fun i d => do
      let x ← rd xs i
      wr d i x) d = ok e → e.length = d.length ∧ k ≤ d.length := by
      intro k
      induction k with
      | zero =>
        intro _ e he
        rw [forN_zero] at he
        rw [← Out.ok.inj he]
        exact ⟨rfl, Nat.zero_le _⟩
      | succ k ih =>
        intro hk e he
        rw [forN_succ] at he
        obtain ⟨e1, h1, h2⟩ := bind_inv he
        obtain ⟨h3, h4⟩ := ih (by omega) e1 h1
        rw [rd_lt (by omega), ok_bind] at h2
        by_cases hlt : k < e1.length
        · rw [wr_lt _ hlt] at h2
          rw [← Out.ok.inj h2]
          refine ⟨by simp [h3], by omega⟩
        · rw [wr_ge _ (by omega)] at h2
          cases h2
    exact hl (key m le_rfl d' h).2

/-- C110: the soft iron matrix is symmetric, whatever the readings. -/
theorem cal_magn_symmetric {R : Type} [CReal R] (fuel : ℕ) (extra : List R) (junk : ℕ → R) (m : Mtx R) (l mu : R) (K : Mtx R) (b : Vec R)
    (l' : R) (K' : Mtx R) (b' : Vec R) (h : calMagn fuel extra junk m l mu K b = ok (0, l', K', b')) :
    ∀ i j : Fin 3, K'.data[i.val * 3 + j.val]? = K'.data[j.val * 3 + i.val]? ∧ (K'.data[i.val * 3 + j.val]?).isSome = true := by
  unfold calMagn at h
  split_ifs at h with h1 h2
  · have := Out.ok.inj h
    simp [EINVAL] at this
  obtain ⟨⟨d, mean⟩, -, h⟩ := bind_inv h
  obtain ⟨⟨_, idx⟩, -, h⟩ := bind_inv h
  obtain ⟨s, -, h⟩ := bind_inv h
  obtain ⟨⟨_, K1⟩, -, h⟩ := bind_inv h
  obtain ⟨_, -, h⟩ := bind_inv h
  obtain ⟨_, -, h⟩ := bind_inv h
  obtain ⟨_, -, h⟩ := bind_inv h
  obtain ⟨⟨_, _⟩, -, h⟩ := bind_inv h
  obtain ⟨e, -, h⟩ := bind_inv h
  obtain ⟨k, hk, h⟩ := bind_inv h
  obtain ⟨kd, hkd, h⟩ := bind_inv h
  obtain ⟨_, -, h⟩ := bind_inv h
  obtain ⟨_, -, h⟩ := bind_inv h
  obtain ⟨_, -, h⟩ := bind_inv h
  obtain ⟨_, -, h⟩ := bind_inv h
  obtain ⟨_, -, h⟩ := bind_inv h
  obtain ⟨_, -, h⟩ := bind_inv h
  rw [pure_eq] at h
  have h' := Out.ok.inj h
  simp only [Prod.mk.injEq, true_and] at h'
  obtain ⟨-, hK, -⟩ := h'
  unfold calSym at hk
  obtain ⟨g0, -, hk⟩ := bind_inv hk
  obtain ⟨g1, -, hk⟩ := bind_inv hk
  obtain ⟨g2, -, hk⟩ := bind_inv hk
  obtain ⟨g3, -, hk⟩ := bind_inv hk
  obtain ⟨g4, -, hk⟩ := bind_inv hk
  obtain ⟨g5, -, hk⟩ := bind_inv hk
  rw [pure_eq] at hk
  have hk' := Out.ok.inj hk
  subst hk'
  have hpre := copy_prefix [g0, g1, g2, g1, g3, g4, g2, g4, g5] K1.data kd rfl hkd
  subst hK
  intro i j
  dsimp only
  rw [hpre]
  fin_cases i <;> fin_cases j <;> exact ⟨rfl, rfl⟩

/-- Six readings: the ends of the axes of the sphere around (1, 2, 3) with radius 2. -/
def sixPts : Matrix (Fin 6) (Fin 3) ℝ := !![3, 2, 3; -1, 2, 3; 1, 4, 3; 1, 0, 3; 1, 2, 5; 1, 2, 1]

/-- Non-vacuity. -/
example (junk : ℕ → XR) (K : Matrix (Fin 3) (Fin 3) XR) (b : Fin 3 → XR) :
    calMagn 12 [XR.fin 0] junk (mat sixPts []) (XR.fin 0.1) (XR.fin 2) (mtxOf K []) (vecOf b []) =
      ok (0, XR.fin (0.1 * 2 ^ 5), mat (1 : Matrix (Fin 3) (Fin 3) ℝ) [], vec (-![1, 2, 3]) []) := by
  refine cal_magn_sphere_partial (ρ := 2) junk ?_ (by norm_num) ?_ 12 [XR.fin 0] (by omega) (by omega) (by rw [SIZE_MOD_eq]; simp) ?_ (by simp)
    0.1 2 (by norm_num) K b [] [] []
  · intro i
    fin_cases i <;> simp [sixPts, dotProduct, Fin.sum_univ_three] <;> norm_num
  · intro k
    fin_cases k
    · exact ⟨⟨0, by simp [sixPts]; norm_num⟩, ⟨1, by simp [sixPts]; norm_num⟩⟩
    · exact ⟨⟨2, by simp [sixPts]; norm_num⟩, ⟨3, by simp [sixPts]⟩⟩
    · exact ⟨⟨4, by simp [sixPts]; norm_num⟩, ⟨5, by simp [sixPts]; norm_num⟩⟩
  · intro k
    fin_cases k <;> simp [Separated, sixPts, List.ofFn_succ] <;> norm_num

end Verif
