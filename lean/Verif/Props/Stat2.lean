import Verif.Props.Stat1
import Verif.Props.Sort
import Verif.Props.Matrices1
import Mathlib.Data.List.GetD

/-!
# Statistics: covariance matrix (C44), percentiles, median and quartiles (C46), trimmed mean (C42)
-/

namespace Verif

open Out

variable {n : ℕ}

/-! ## C44: covariance matrix -/

/-- C44: entry (i, j) of the covariance matrix is the covariance of columns i and j; cells behind the matrix are untouched. -/
theorem sta_covar_mtx_correct {r c : ℕ} (junk : ℕ → XR) (A : Matrix (Fin r) (Fin c) ℝ) (B : Matrix (Fin c) (Fin c) XR) (t u : List XR)
    (hr : 2 ≤ r) :
    staCovarMtx junk (mat A t) (mtxOf B u) = ok (0, mat (Matrix.of fun i j => covOf (fun k => A k i) (fun k => A k j)) u) := by
  set C : Matrix (Fin c) (Fin c) ℝ := Matrix.of fun i j => covOf (fun k => A k i) (fun k => A k j) with hC
  have key : (forN c (fun i s =>
      forN c (fun j (s : List XR × List XR × List XR) => do
        let (_, v1) ← mtxGetCol (mat A t) i s.2.1
        let (_, v2) ← mtxGetCol (mat A t) j s.2.2
        let (_, c') ← staCovar junk ⟨r, v1⟩ ⟨r, v2⟩ (junk 0)
        let d ← wr s.1 (i * c + j) c'
        return (d, v1, v2)) s) (mkD c c (ext B) u, junkArr junk r, junkArr junk r)).sat fun s =>
      ∃ y1 y2 : Fin r → XR, s = (mkD c c (mix c 0 (ext (C.map XR.fin)) (ext B)) u, arrOf y1 [], arrOf y2 []) := by
    refine forN_sat (fun i s => ∃ y1 y2 : Fin r → XR,
      s = (mkD c c (mix i 0 (ext (C.map XR.fin)) (ext B)) u, arrOf y1 [], arrOf y2 [])) ?_ ?_
    · refine ⟨_, _, by rw [← junkArr_eq junk r]; congr 1; exact mkD_congr fun a _ b _ => by simp [mix]⟩
    · intro i hi s hs
      refine Out.sat.mono (P := fun s => ∃ y1 y2 : Fin r → XR,
        s = (mkD c c (mix i c (ext (C.map XR.fin)) (ext B)) u, arrOf y1 [], arrOf y2 [])) ?_ ?_
      · refine forN_sat (fun j s => ∃ y1 y2 : Fin r → XR,
          s = (mkD c c (mix i j (ext (C.map XR.fin)) (ext B)) u, arrOf y1 [], arrOf y2 [])) hs ?_
        rintro j hj s ⟨y1, y2, rfl⟩
        dsimp only
        rw [mat_getCol A t y1 [] ⟨i, hi⟩, ok_bind]
        dsimp only
        rw [mat_getCol A t y2 [] ⟨j, hj⟩, ok_bind]
        dsimp only
        have := sta_covar_correct junk (fun k => A k ⟨i, hi⟩) (fun k => A k ⟨j, hj⟩) [] [] (junk 0) hr
        unfold vec at this
        rw [this, ok_bind]
        dsimp only
        rw [mkD_wr _ _ _ hi hj, ok_bind, pure_eq, sat_ok]
        refine ⟨fun k => XR.fin (A k ⟨i, hi⟩), fun k => XR.fin (A k ⟨j, hj⟩), ?_⟩
        rw [← upd_mix, ext_lt _ hi hj]
        rfl
      · rintro s ⟨y1, y2, rfl⟩
        refine ⟨y1, y2, ?_⟩
        congr 1
        apply mkD_congr
        intro a _ b hb
        unfold mix
        exact if_congr (by omega) rfl rfl
  obtain ⟨s, hs, y1, y2, rfl⟩ := key
  rw [staCovarMtx, if_neg (by simp [mat]), if_neg (by simp [mat]; omega), mat_rows, mat_cols, mtxOf_eq B u]
  unfold mkM
  dsimp only
  rw [hs, ok_bind, pure_eq]
  dsimp only
  congr 2
  unfold mat
  rw [mtxOf_eq]
  unfold mkM
  congr 1
  apply mkD_congr
  intro a ha b _
  simp [mix, ha]

/-- C44: the covariance matrix is symmetric and has the variances of the columns on its diagonal. -/
theorem sta_covar_mtx_laws {r c : ℕ} (junk : ℕ → XR) (A : Matrix (Fin r) (Fin c) ℝ) (B : Matrix (Fin c) (Fin c) XR) (t u : List XR)
    (hr : 2 ≤ r) :
    ∃ C : Matrix (Fin c) (Fin c) ℝ, staCovarMtx junk (mat A t) (mtxOf B u) = ok (0, mat C u) ∧ C.IsSymm ∧
      ∀ j, staVar junk (vec (fun k => A k j) []) = ok (0, XR.fin (C j j)) := by
  refine ⟨_, sta_covar_mtx_correct junk A B t u hr, ?_, ?_⟩
  · ext i j
    simp only [Matrix.transpose_apply, Matrix.of_apply, covOf]
    congr 1
    exact Finset.sum_congr rfl fun k _ => mul_comm _ _
  · intro j
    rw [sta_var_correct junk _ _ hr, Matrix.of_apply, covOf, varOf]
    congr 4
    exact Finset.sum_congr rfl fun k _ => pow_two _

/-- C44: shape mismatch. -/
theorem sta_covar_mtx_mismatch {R : Type} [CReal R] (junk : ℕ → R) (m mc : Mtx R) (h : mc.rows ≠ mc.cols ∨ mc.cols ≠ m.cols) :
    staCovarMtx junk m mc = ok (-EINVAL, mc) := by
  rw [staCovarMtx, if_pos h]

/-! ## C46 -/

/-- The circumstances in which `zsl_vec_sort` sorts, see C12: distinct values are 1e-5 apart, there is a repeated value or at least
one cell behind the work buffer, and the recursion budget suffices. -/
structure SortOK (fuel : ℕ) (extra : List XR) (x : Fin n → ℝ) : Prop where
  sep : Separated (List.ofFn x)
  ex : extra ≠ [] ∨ ¬ Function.Injective x
  fuel : 2 * n ≤ fuel
  mem : n + extra.length < SIZE_MOD

theorem sortedOf_perm (x : Fin n → ℝ) : (sortedOf x).Perm (List.ofFn x) := List.perm_insertionSort _ _

theorem sortedOf_pairwise (x : Fin n → ℝ) : (sortedOf x).Pairwise (· ≤ ·) := List.pairwise_insertionSort _ _

theorem sortedOf_length (x : Fin n → ℝ) : (sortedOf x).length = n := by
  rw [(sortedOf_perm x).length_eq, List.length_ofFn]

theorem vecSort_sorted (fuel : ℕ) (extra : List XR) (x : Fin n → ℝ) (y : Fin n → XR) (t : List XR) (hn : 1 ≤ n) (h : SortOK fuel extra x) :
    vecSort fuel extra (vec x t) (vecOf y []) = ok (0, ⟨n, (sortedOf x).map XR.fin⟩) := by
  obtain ⟨l, hp, hs, e⟩ := vec_sort_partial (vec x t) (vecOf y []) x extra fuel (vec_is x t) hn (by simp [vecOf, arrOf]) h.fuel h.mem
    h.sep h.ex
  have : l = sortedOf x := (hp.trans (sortedOf_perm x).symm).eq_of_pairwise (fun a b _ _ h1 h2 => le_antisymm h1 h2) hs (sortedOf_pairwise x)
  rw [e, vecOf_drop, List.append_nil, this, vecOf_sz]

/-- The value `zsl_sta_percentile` computes from the sorted data. -/
noncomputable def percVal (l : List ℝ) (p : ℝ) : ℝ :=
  if (⌊p * l.length / 100⌋₊ : ℝ) = p * l.length / 100 then
    (l.getD ⌊p * l.length / 100⌋₊ 0 + l.getD (⌊p * l.length / 100⌋₊ - 1) 0) / 2
  else l.getD ⌊p * l.length / 100⌋₊ 0

theorem realToInt_floor (x : ℝ) (h0 : 0 ≤ x) (h1 : x < 2147483648) : realToInt (XR.fin (⌊x⌋ : ℝ)) = ok (⌊x⌋₊ : ℤ) := by
  have hf : 0 ≤ ⌊x⌋ := Int.floor_nonneg.2 h0
  have hf' : ⌊x⌋ < 2147483648 := by
    rw [Int.floor_lt]; exact_mod_cast h1
  have : CReal.trunc (XR.fin (⌊x⌋ : ℝ)) = some ⌊x⌋ := by
    show XR.trunc _ = _
    rw [XR.trunc, if_pos (by exact_mod_cast hf), Int.floor_intCast]
  rw [realToInt, this]
  dsimp only
  rw [if_pos ⟨by omega, hf'⟩, Int.natCast_floor_eq_floor h0]

theorem rdI_map (l : List ℝ) (k : ℕ) (h : k < l.length) : rdI (l.map XR.fin) (k : ℤ) = ok (XR.fin (l.getD k 0)) := by
  rw [rdI, if_pos (by omega), Int.toNat_natCast, rd_lt (by simpa using h), List.getElem_map, List.getD_eq_getElem _ _ h]

/-- The first half of `zsl_sta_percentile`, in terms of what the sort delivers. -/
theorem staPercentile_unfold' (fuel : ℕ) (extra : List XR) (junk : ℕ → XR) (x : Fin n → ℝ) (t : List XR) (p : ℝ) (val : XR) (hn : 1 ≤ n)
    (hp0 : 0 ≤ p) (hp1 : p ≤ 100) (l : List ℝ)
    (h : ∀ y : Fin n → XR, vecSort fuel extra (vec x t) (vecOf y []) = ok (0, ⟨n, l.map XR.fin⟩)) (hn2 : n < 2147483648) :
    staPercentile fuel extra junk (vec x t) (XR.fin p) val =
      (if (⌊p * n / 100⌋₊ : ℝ) = p * n / 100 then do
        let a ← rdI (l.map XR.fin) (⌊p * n / 100⌋₊ : ℤ)
        let b ← rdI (l.map XR.fin) ((⌊p * n / 100⌋₊ : ℤ) - 1)
        return (0, (a + b) / lit 2)
      else do
        let a ← rdI (l.map XR.fin) (⌊p * n / 100⌋₊ : ℤ)
        return (0, a)) := by
  have hx0 : 0 ≤ p * n / 100 := by positivity
  have hx1 : p * n / 100 < 2147483648 := by
    have : (n : ℝ) < 2147483648 := by exact_mod_cast hn2
    rw [div_lt_iff₀ (by norm_num)]
    nlinarith
  have hfl : CReal.floor (XR.fin (p * n / 100)) = XR.fin (⌊p * n / 100⌋ : ℝ) := rfl
  have hcast : (⌊p * n / 100⌋ : ℝ) = (⌊p * n / 100⌋₊ : ℝ) := by
    rw [natCast_floor_eq_intCast_floor hx0]
  rw [staPercentile, if_neg, if_neg (by rw [vec_sz]; omega), vec_sz, vecUninit_eq, vecInit_vec, ok_bind]
  · dsimp only
    rw [vec_eq_vecOf (0 : Fin n → ℝ), h, ok_bind]
    dsimp only
    rw [XR.ofNat_eq, XR.fin_mul, XR.lit_eq, show ((100 : ℚ) : ℝ) = 100 by norm_num, XR.fin_div (by norm_num), hfl]
    rw [realToInt_floor _ hx0 hx1]
    simp only [ok_bind]
    rw [hcast]
    refine if_congr ?_ rfl rfl
    rw [XR.fin_eq]
    exact eq_comm
  · rw [Bool.or_eq_true, XR.lit_eq, XR.lit_eq, XR.fin_lt, XR.fin_gt]
    push Not
    norm_num
    exact ⟨hp1, hp0⟩

/-- The first half of `zsl_sta_percentile`. -/
theorem staPercentile_unfold (fuel : ℕ) (extra : List XR) (junk : ℕ → XR) (x : Fin n → ℝ) (t : List XR) (p : ℝ) (val : XR) (hn : 1 ≤ n)
    (hp0 : 0 ≤ p) (hp1 : p ≤ 100) (h : SortOK fuel extra x) (hn2 : n < 2147483648) :
    staPercentile fuel extra junk (vec x t) (XR.fin p) val =
      (if (⌊p * n / 100⌋₊ : ℝ) = p * n / 100 then do
        let a ← rdI ((sortedOf x).map XR.fin) (⌊p * n / 100⌋₊ : ℤ)
        let b ← rdI ((sortedOf x).map XR.fin) ((⌊p * n / 100⌋₊ : ℤ) - 1)
        return (0, (a + b) / lit 2)
      else do
        let a ← rdI ((sortedOf x).map XR.fin) (⌊p * n / 100⌋₊ : ℤ)
        return (0, a)) :=
  staPercentile_unfold' fuel extra junk x t p val hn hp0 hp1 _ (fun y => vecSort_sorted fuel extra x y t hn h) hn2

theorem floor_lt_of (p : ℝ) (hn : 1 ≤ n) (hp : 0 < p) (h : p < 100) : ⌊p * n / 100⌋₊ < n := by
  rw [Nat.floor_lt (by positivity), div_lt_iff₀ (by norm_num)]
  have : (0 : ℝ) < n := by exact_mod_cast hn
  nlinarith

theorem floor_pos_of (p : ℝ) (hn : 1 ≤ n) (hp : 0 < p) (h : (⌊p * n / 100⌋₊ : ℝ) = p * n / 100) : 1 ≤ ⌊p * n / 100⌋₊ := by
  have h0 : (0 : ℝ) < n := by exact_mod_cast hn
  have : 0 < p * n / 100 := by positivity
  rw [← h] at this
  exact_mod_cast this

/-- C46, part: the value computed for 0 < p < 100. -/
theorem sta_percentile_value (fuel : ℕ) (extra : List XR) (junk : ℕ → XR) (x : Fin n → ℝ) (t : List XR) (p : ℝ) (val : XR) (hn : 1 ≤ n)
    (hp0 : 0 < p) (hp1 : p < 100) (h : SortOK fuel extra x) (hn2 : n < 2147483648) :
    staPercentile fuel extra junk (vec x t) (XR.fin p) val = ok (0, XR.fin (percVal (sortedOf x) p)) := by
  have hlt := floor_lt_of p hn hp0 hp1
  have hl := sortedOf_length x
  rw [staPercentile_unfold fuel extra junk x t p val hn hp0.le hp1.le h hn2, percVal, hl, rdI_map _ _ (by omega)]
  simp only [ok_bind]
  by_cases hi : (⌊p * n / 100⌋₊ : ℝ) = p * n / 100
  · have hk := floor_pos_of p hn hp0 hi
    rw [if_pos hi, if_pos hi, show ((⌊p * n / 100⌋₊ : ℤ) - 1) = ((⌊p * n / 100⌋₊ - 1 : ℕ) : ℤ) by omega, rdI_map _ _ (by omega), ok_bind,
      XR.fin_add, XR.lit_eq, show ((2 : ℚ) : ℝ) = 2 by norm_num, XR.fin_div (by norm_num)]
    rfl
  · rw [if_neg hi, if_neg hi]
    rfl

theorem getD_mono (l : List ℝ) (hs : l.Pairwise (· ≤ ·)) (i j : ℕ) (hij : i ≤ j) (hj : j < l.length) : l.getD i 0 ≤ l.getD j 0 := by
  rw [List.getD_eq_getElem _ _ (by omega), List.getD_eq_getElem _ _ hj]
  rcases Nat.lt_or_eq_of_le hij with h | rfl
  · exact List.pairwise_iff_getElem.1 hs i j (by omega) hj h
  · exact le_rfl

theorem count_le_getD (l : List ℝ) (hs : l.Pairwise (· ≤ ·)) (j : ℕ) (hj : j < l.length) (v : ℝ) (hv : l.getD j 0 ≤ v) :
    j + 1 ≤ l.countP fun b => decide (b ≤ v) := by
  have h1 : (l.take (j + 1)).countP (fun b => decide (b ≤ v)) = (l.take (j + 1)).length := by
    rw [List.countP_eq_length]
    intro a ha
    obtain ⟨i, hi, rfl⟩ := List.mem_iff_getElem.1 ha
    rw [List.length_take] at hi
    have := getD_mono l hs i j (by omega) hj
    rw [List.getD_eq_getElem _ _ (by omega)] at this
    rw [List.getElem_take]
    simpa using this.trans hv
  have h2 := (List.take_sublist (j + 1) l).countP_le (p := fun b => decide (b ≤ v))
  rw [h1, List.length_take] at h2
  omega

theorem count_ge_getD (l : List ℝ) (hs : l.Pairwise (· ≤ ·)) (j : ℕ) (hj : j < l.length) (v : ℝ) (hv : v ≤ l.getD j 0) :
    l.length - j ≤ l.countP fun b => decide (v ≤ b) := by
  have h1 : (l.drop j).countP (fun b => decide (v ≤ b)) = (l.drop j).length := by
    rw [List.countP_eq_length]
    intro a ha
    obtain ⟨i, hi, rfl⟩ := List.mem_iff_getElem.1 ha
    rw [List.length_drop] at hi
    have := getD_mono l hs j (j + i) (by omega) (by omega)
    rw [List.getD_eq_getElem (n := j + i) _ _ (by omega)] at this
    rw [List.getElem_drop]
    simpa using hv.trans this
  have h2 := (List.drop_sublist j l).countP_le (p := fun b => decide (v ≤ b))
  rw [h1, List.length_drop] at h2
  exact h2

theorem countP_ofFn (x : Fin n → ℝ) (P : ℝ → Prop) [DecidablePred P] :
    (List.ofFn x).countP (fun b => decide (P b)) = (Finset.univ.filter fun i => P (x i)).card := by
  rw [List.ofFn_eq_map, List.countP_map, List.countP_eq_length_filter]
  rw [← List.toFinset_card_of_nodup ((List.nodup_finRange n).filter _)]
  congr 1
  ext i
  simp

theorem card_sorted (x : Fin n → ℝ) (P : ℝ → Prop) [DecidablePred P] :
    (sortedOf x).countP (fun b => decide (P b)) = (Finset.univ.filter fun i => P (x i)).card := by
  rw [(sortedOf_perm x).countP_eq, countP_ofFn]

theorem percVal_isPercentile (x : Fin n → ℝ) (p : ℝ) (hn : 1 ≤ n) (hp0 : 0 < p) (hp1 : p < 100) :
    IsPercentile x p (percVal (sortedOf x) p) := by
  have hl := sortedOf_length x
  have hs := sortedOf_pairwise x
  have hlt := floor_lt_of p hn hp0 hp1
  have hn0 : (0 : ℝ) < n := by exact_mod_cast hn
  have hle : (⌊p * n / 100⌋₊ : ℝ) ≤ p * n / 100 := Nat.floor_le (by positivity)
  have hgt : p * n / 100 < ⌊p * n / 100⌋₊ + 1 := Nat.lt_floor_add_one _
  unfold percVal
  rw [hl]
  set k := ⌊p * n / 100⌋₊ with hk
  rw [IsPercentile, ← card_sorted x (fun b => b ≤ _), ← card_sorted x (fun b => _ ≤ b)]
  have h100 : (100 - p) / 100 * (n : ℝ) = n - p * n / 100 := by ring
  by_cases hi : (k : ℝ) = p * n / 100
  · rw [if_pos hi]
    have hkp : 1 ≤ k := floor_pos_of p hn hp0 hi
    have hm := getD_mono (sortedOf x) hs (k - 1) k (by omega) (by omega)
    have c1 := count_le_getD (sortedOf x) hs (k - 1) (by omega) (((sortedOf x).getD k 0 + (sortedOf x).getD (k - 1) 0) / 2) (by linarith)
    have c2 := count_ge_getD (sortedOf x) hs k (by omega) (((sortedOf x).getD k 0 + (sortedOf x).getD (k - 1) 0) / 2) (by linarith)
    rw [hl] at c2
    constructor
    · have : (k : ℝ) ≤ _ := Nat.cast_le.2 ((by omega : k ≤ k - 1 + 1).trans c1)
      have e : p / 100 * (n : ℝ) = p * n / 100 := by ring
      rw [e, ← hi]
      exact this
    · have : ((n - k : ℕ) : ℝ) ≤ _ := Nat.cast_le.2 c2
      rw [h100, ← hi, ← Nat.cast_sub hlt.le]
      exact this
  · rw [if_neg hi]
    have c1 := count_le_getD (sortedOf x) hs k (by omega) _ le_rfl
    have c2 := count_ge_getD (sortedOf x) hs k (by omega) _ le_rfl
    rw [hl] at c2
    constructor
    · have : ((k + 1 : ℕ) : ℝ) ≤ _ := Nat.cast_le.2 c1
      push_cast at this
      have e : p / 100 * (n : ℝ) = p * n / 100 := by ring
      rw [e]
      exact hgt.le.trans this
    · have : ((n - k : ℕ) : ℝ) ≤ _ := Nat.cast_le.2 c2
      rw [Nat.cast_sub hlt.le] at this
      rw [h100]
      refine le_trans ?_ this
      linarith

theorem percVal_mono (x : Fin n → ℝ) (p q : ℝ) (hn : 1 ≤ n) (hp0 : 0 < p) (hpq : p ≤ q) (hq : q < 100) :
    percVal (sortedOf x) p ≤ percVal (sortedOf x) q := by
  rcases eq_or_lt_of_le hpq with rfl | hlt
  · exact le_rfl
  have hl := sortedOf_length x
  have hs := sortedOf_pairwise x
  have hkq := floor_lt_of q hn (hp0.trans hlt) hq
  have hn0 : (0 : ℝ) < n := by exact_mod_cast hn
  have hx : p * n / 100 < q * n / 100 := by
    apply div_lt_div_of_pos_right _ (by norm_num)
    exact mul_lt_mul_of_pos_right hlt hn0
  have hfl : ⌊p * n / 100⌋₊ ≤ ⌊q * n / 100⌋₊ := Nat.floor_mono hx.le
  unfold percVal
  rw [hl]
  by_cases hp : (⌊p * n / 100⌋₊ : ℝ) = p * n / 100 <;> by_cases hq' : (⌊q * n / 100⌋₊ : ℝ) = q * n / 100
  · rw [if_pos hp, if_pos hq']
    have h1 := getD_mono _ hs _ _ hfl (by omega)
    have h2 := getD_mono _ hs (⌊p * n / 100⌋₊ - 1) (⌊q * n / 100⌋₊ - 1) (by omega) (by omega)
    linarith
  · rw [if_pos hp, if_neg hq']
    have h1 := getD_mono _ hs _ _ hfl (by omega)
    have h2 := getD_mono _ hs (⌊p * n / 100⌋₊ - 1) (⌊q * n / 100⌋₊) (by omega) (by omega)
    linarith
  · rw [if_neg hp, if_pos hq']
    have hstrict : ⌊p * n / 100⌋₊ < ⌊q * n / 100⌋₊ := by
      have : (⌊p * n / 100⌋₊ : ℝ) < ⌊q * n / 100⌋₊ := by
        rw [hq']; exact (Nat.floor_le (by positivity)).trans_lt hx
      exact_mod_cast this
    have h1 := getD_mono _ hs _ _ hfl (by omega)
    have h2 := getD_mono _ hs (⌊p * n / 100⌋₊) (⌊q * n / 100⌋₊ - 1) (by omega) (by omega)
    linarith
  · rw [if_neg hp, if_neg hq']
    exact getD_mono _ hs _ _ hfl (by omega)

theorem getD_sorted_mem (x : Fin n → ℝ) (k : ℕ) (hk : k < n) : ∃ i, (sortedOf x).getD k 0 = x i := by
  have : (sortedOf x).getD k 0 ∈ List.ofFn x := by
    rw [← (sortedOf_perm x).mem_iff, List.getD_eq_getElem _ _ (by rw [sortedOf_length]; exact hk)]
    exact List.getElem_mem _
  rw [List.mem_ofFn] at this
  obtain ⟨i, hi⟩ := this
  exact ⟨i, hi.symm⟩

/-- C46, part: for 0 < p < 100 the result is a p-th percentile of the data and lies between two of them; nothing outside the sorted
copy is read. Missing: p = 0 and p = 100, for which the code reads outside the sorted copy (`sta_percentile_zero`,
`sta_percentile_hundred`), and data that `zsl_vec_sort` does not sort (see C12). -/
theorem sta_percentile_partial (fuel : ℕ) (extra : List XR) (junk : ℕ → XR) (x : Fin n → ℝ) (t : List XR) (p : ℝ) (val : XR) (hn : 1 ≤ n)
    (hp0 : 0 < p) (hp1 : p < 100) (h : SortOK fuel extra x) (hn2 : n < 2147483648) :
    ∃ v, staPercentile fuel extra junk (vec x t) (XR.fin p) val = ok (0, XR.fin v) ∧ IsPercentile x p v ∧ ∃ i j, x i ≤ v ∧ v ≤ x j := by
  refine ⟨_, sta_percentile_value fuel extra junk x t p val hn hp0 hp1 h hn2, percVal_isPercentile x p hn hp0 hp1, ?_⟩
  have hlt := floor_lt_of p hn hp0 hp1
  have hl := sortedOf_length x
  have hs := sortedOf_pairwise x
  obtain ⟨i, hi⟩ := getD_sorted_mem x _ hlt
  unfold percVal
  rw [hl]
  by_cases he : (⌊p * n / 100⌋₊ : ℝ) = p * n / 100
  · rw [if_pos he]
    obtain ⟨j, hj⟩ := getD_sorted_mem x (⌊p * n / 100⌋₊ - 1) (by omega)
    have hm := getD_mono _ hs (⌊p * n / 100⌋₊ - 1) _ (by omega) (by omega : ⌊p * n / 100⌋₊ < _)
    exact ⟨j, i, by rw [← hj]; linarith, by rw [← hi]; linarith⟩
  · rw [if_neg he]
    exact ⟨i, i, hi.symm.le, hi.le⟩

/-- C46, part: percentiles grow with p. -/
theorem sta_percentile_mono_partial (fuel : ℕ) (extra : List XR) (junk : ℕ → XR) (x : Fin n → ℝ) (t : List XR) (p q : ℝ) (val : XR)
    (hn : 1 ≤ n) (hp0 : 0 < p) (hpq : p ≤ q) (hq : q < 100) (h : SortOK fuel extra x) (hn2 : n < 2147483648) :
    ∃ v w, staPercentile fuel extra junk (vec x t) (XR.fin p) val = ok (0, XR.fin v) ∧
      staPercentile fuel extra junk (vec x t) (XR.fin q) val = ok (0, XR.fin w) ∧ v ≤ w :=
  ⟨_, _, sta_percentile_value fuel extra junk x t p val hn hp0 (by linarith) h hn2,
    sta_percentile_value fuel extra junk x t q val hn (by linarith) hq h hn2, percVal_mono x p q hn hp0 hpq hq⟩

/-- C46: `p` outside 0..100 is refused. -/
theorem sta_percentile_reject (fuel : ℕ) (extra : List XR) (junk : ℕ → XR) (v : Vec XR) (p : ℝ) (val : XR) (h : p < 0 ∨ 100 < p) :
    staPercentile fuel extra junk v (XR.fin p) val = ok (-EINVAL, val) := by
  rw [staPercentile, if_pos]
  rw [Bool.or_eq_true, XR.lit_eq, XR.lit_eq, XR.fin_lt, XR.fin_gt]
  norm_num
  tauto

/-- C46 fails for p = 0: the cell before the sorted copy is read. -/
theorem sta_percentile_zero (fuel : ℕ) (extra : List XR) (junk : ℕ → XR) (x : Fin n → ℝ) (t : List XR) (val : XR) (hn : 1 ≤ n)
    (h : SortOK fuel extra x) (hn2 : n < 2147483648) :
    staPercentile fuel extra junk (vec x t) (XR.fin 0) val = ub := by
  rw [staPercentile_unfold fuel extra junk x t 0 val hn le_rfl (by norm_num) h hn2, zero_mul, zero_div, Nat.floor_zero, if_pos (by simp),
    rdI_map _ _ (by rw [sortedOf_length]; omega), ok_bind, rdI, if_neg (by omega)]
  rfl

/-- C46 fails for p = 100: the cell behind the sorted copy is read. -/
theorem sta_percentile_hundred (fuel : ℕ) (extra : List XR) (junk : ℕ → XR) (x : Fin n → ℝ) (t : List XR) (val : XR) (hn : 1 ≤ n)
    (h : SortOK fuel extra x) (hn2 : n < 2147483648) :
    staPercentile fuel extra junk (vec x t) (XR.fin 100) val = ub := by
  have e : (100 : ℝ) * n / 100 = n := by ring
  rw [staPercentile_unfold fuel extra junk x t 100 val hn (by norm_num) le_rfl h hn2, e, Nat.floor_natCast, if_pos rfl,
    rdI, if_pos (by omega), Int.toNat_natCast, rd_ge (by rw [List.length_map, sortedOf_length])]
  rfl

theorem percVal_median_odd (x : Fin (2 * n + 1) → ℝ) : percVal (sortedOf x) 50 = (sortedOf x).getD n 0 := by
  have hfl : ⌊(50 : ℝ) * (2 * n + 1 : ℕ) / 100⌋₊ = n := by
    rw [Nat.floor_eq_iff (by positivity)]
    push_cast
    constructor <;> linarith
  rw [percVal, sortedOf_length, hfl, if_neg]
  push_cast
  intro h
  linarith

theorem percVal_median_even (x : Fin (2 * (n + 1)) → ℝ) :
    percVal (sortedOf x) 50 = ((sortedOf x).getD (n + 1) 0 + (sortedOf x).getD n 0) / 2 := by
  have hfl : ⌊(50 : ℝ) * (2 * (n + 1) : ℕ) / 100⌋₊ = n + 1 := by
    rw [Nat.floor_eq_iff (by positivity)]
    push_cast
    constructor <;> linarith
  rw [percVal, sortedOf_length, hfl, if_pos]
  · rfl
  · push_cast; ring

theorem lit_fifty : (lit 50 : XR) = XR.fin 50 := by rw [XR.lit_eq]; norm_num

/-- C46, part: the median is the 50th percentile. -/
theorem sta_median_partial (fuel : ℕ) (extra : List XR) (junk : ℕ → XR) (x : Fin n → ℝ) (t : List XR) (m : XR)
    (hn : 1 ≤ n) (h : SortOK fuel extra x) (hn2 : n < 2147483648) :
    ∃ v, staMedian fuel extra junk (vec x t) m = ok (0, XR.fin v) ∧
      staPercentile fuel extra junk (vec x t) (XR.fin 50) m = ok (0, XR.fin v) ∧ IsPercentile x 50 v := by
  have := sta_percentile_value fuel extra junk x t 50 m hn (by norm_num) (by norm_num) h hn2
  refine ⟨_, ?_, this, percVal_isPercentile x 50 hn (by norm_num) (by norm_num)⟩
  rw [staMedian, lit_fifty, this]
  rfl

/-- C46, part: the median of an odd number of data is the middle one. -/
theorem sta_median_odd_partial (fuel : ℕ) (extra : List XR) (junk : ℕ → XR) (x : Fin (2 * n + 1) → ℝ) (t : List XR) (m : XR)
    (h : SortOK fuel extra x) (hn2 : 2 * n + 1 < 2147483648) :
    staMedian fuel extra junk (vec x t) m = ok (0, XR.fin ((sortedOf x).getD n 0)) := by
  rw [staMedian, lit_fifty, sta_percentile_value fuel extra junk x t 50 m (by omega) (by norm_num) (by norm_num) h hn2, percVal_median_odd]
  rfl

/-- C46, part: the median of an even number of data is the mean of the two in the middle. -/
theorem sta_median_even_partial (fuel : ℕ) (extra : List XR) (junk : ℕ → XR) (x : Fin (2 * (n + 1)) → ℝ) (t : List XR) (m : XR)
    (h : SortOK fuel extra x) (hn2 : 2 * (n + 1) < 2147483648) :
    staMedian fuel extra junk (vec x t) m = ok (0, XR.fin (((sortedOf x).getD n 0 + (sortedOf x).getD (n + 1) 0) / 2)) := by
  rw [staMedian, lit_fifty, sta_percentile_value fuel extra junk x t 50 m (by omega) (by norm_num) (by norm_num) h hn2, percVal_median_even,
    add_comm]
  rfl

/-- C46, part: the quartiles are the 25th, 50th and 75th percentiles and are ordered; the interquartile range is their distance and
not negative. -/
theorem sta_quart_partial (fuel : ℕ) (extra : List XR) (junk : ℕ → XR) (x : Fin n → ℝ) (t : List XR) (q1 q2 q3 : XR)
    (hn : 1 ≤ n) (h : SortOK fuel extra x) (hn2 : n < 2147483648) :
    ∃ a b c, staQuart fuel extra junk (vec x t) q1 q2 q3 = ok (0, XR.fin a, XR.fin b, XR.fin c) ∧ a ≤ b ∧ b ≤ c ∧
      IsPercentile x 25 a ∧ IsPercentile x 50 b ∧ IsPercentile x 75 c ∧
      staQuartRange fuel extra junk (vec x t) = ok (0, XR.fin (c - a)) := by
  refine ⟨percVal (sortedOf x) 25, percVal (sortedOf x) 50, percVal (sortedOf x) 75, ?_, percVal_mono x _ _ hn (by norm_num) (by norm_num)
    (by norm_num), percVal_mono x _ _ hn (by norm_num) (by norm_num) (by norm_num), percVal_isPercentile x 25 hn (by norm_num) (by norm_num),
    percVal_isPercentile x 50 hn (by norm_num) (by norm_num), percVal_isPercentile x 75 hn (by norm_num) (by norm_num), ?_⟩
  · have e1 : (lit 25 : XR) = XR.fin 25 := by rw [XR.lit_eq]; norm_num
    have e3 : (lit 75 : XR) = XR.fin 75 := by rw [XR.lit_eq]; norm_num
    rw [staQuart, e1, lit_fifty, e3, sta_percentile_value fuel extra junk x t 25 _ hn (by norm_num) (by norm_num) h hn2, ok_bind]
    dsimp only
    rw [sta_percentile_value fuel extra junk x t 50 _ hn (by norm_num) (by norm_num) h hn2, ok_bind]
    dsimp only
    rw [sta_percentile_value fuel extra junk x t 75 _ hn (by norm_num) (by norm_num) h hn2]
    rfl
  · have e1 : (lit 25 : XR) = XR.fin 25 := by rw [XR.lit_eq]; norm_num
    have e3 : (lit 75 : XR) = XR.fin 75 := by rw [XR.lit_eq]; norm_num
    rw [staQuartRange, e1, e3, sta_percentile_value fuel extra junk x t 25 _ hn (by norm_num) (by norm_num) h hn2, ok_bind]
    dsimp only
    rw [sta_percentile_value fuel extra junk x t 75 _ hn (by norm_num) (by norm_num) h hn2]
    rfl

theorem sortOK_example : SortOK (n := 4) 8 [] ![3, 1, 3, 2] where
  sep := by
    constructor
    · simp only [List.ofFn_succ, List.ofFn_zero, Matrix.cons_val_zero, Matrix.cons_val_succ]
      intro a ha b hb
      simp only [List.mem_cons, List.not_mem_nil, or_false] at ha hb
      rcases ha with rfl | rfl | rfl | rfl <;> rcases hb with rfl | rfl | rfl | rfl <;> norm_num
    · simp only [List.ofFn_succ, List.ofFn_zero, Matrix.cons_val_zero, Matrix.cons_val_succ]
      intro a ha
      simp only [List.mem_cons, List.not_mem_nil, or_false] at ha
      rcases ha with rfl | rfl | rfl | rfl <;> norm_num
  ex := Or.inr fun h => by simpa using @h 0 2 (by simp)
  fuel := by norm_num
  mem := by rw [SIZE_MOD_eq]; norm_num

end Verif
