import Verif.Lemmas.Rref
import Verif.Props.Decomp1
import Verif.Props.Decomp2
import Verif.Props.Safe2
import Verif.Props.Vectors3

/-! # Collecting eigenvectors -/

set_option linter.unusedSectionVars false

namespace Verif

open Out Matrix

variable {n r c : ℕ}

/-! ### Storing columns one after the other -/

/-- The matrix `D` with the vectors of `l` stored in the columns from `b` on; vectors for which there is no column are dropped. -/
noncomputable def setCols (D : Matrix (Fin r) (Fin c) XR) (b : ℕ) (l : List (Fin r → ℝ)) : Matrix (Fin r) (Fin c) XR :=
  Matrix.of fun i j => if h : b ≤ j.val ∧ j.val - b < l.length then XR.fin ((l[j.val - b]'h.2) i) else D i j

theorem setCols_nil (D : Matrix (Fin r) (Fin c) XR) (b : ℕ) : setCols D b [] = D := by
  ext i j
  simp [setCols]

theorem setCols_append (D : Matrix (Fin r) (Fin c) XR) (b : ℕ) (l1 l2 : List (Fin r → ℝ)) :
    setCols (setCols D b l1) (b + l1.length) l2 = setCols D b (l1 ++ l2) := by
  ext i j
  simp only [setCols, of_apply, List.length_append]
  by_cases h1 : b ≤ j.val ∧ j.val - b < l1.length
  · rw [dif_neg (by omega), dif_pos h1, dif_pos (by omega), List.getElem_append_left h1.2]
  · by_cases h2 : b + l1.length ≤ j.val ∧ j.val - (b + l1.length) < l2.length
    · rw [dif_pos h2, dif_pos (by omega), List.getElem_append_right (by omega)]
      have e : j.val - (b + l1.length) = j.val - b - l1.length := by omega
      exact congrArg (fun x : Fin r → ℝ => XR.fin (x i)) (getElem_congr rfl e _)
    · rw [dif_neg h2, dif_neg h1, dif_neg (by omega)]

theorem setCols_full (D : Matrix (Fin r) (Fin c) XR) (l : List (Fin r → ℝ)) (h : l.length = c) (t : List XR) :
    mtxOf (setCols D 0 l) t = mat (Matrix.of fun (i : Fin r) (j : Fin c) => (l[j.val]'(by omega)) i) t := by
  unfold mat
  congr 1
  ext i j
  simp [setCols, h]

theorem mtxSetCol_any (D : Matrix (Fin r) (Fin c) XR) (t s : List XR) (b : ℕ) (v : Fin r → ℝ) (hr : 0 < r) :
    ∃ rc, mtxSetCol (mtxOf D t) b (arr v s) = ok (rc, mtxOf (setCols D b [v]) t) := by
  by_cases hb : b < c
  · refine ⟨0, (mtx_set_col_correct D t s (fun i => XR.fin (v i)) ⟨b, hb⟩).trans ?_⟩
    congr 3
    ext i j
    rw [updateCol_apply]
    simp only [setCols, of_apply, List.length_singleton, List.getElem_singleton, Fin.ext_iff]
    by_cases h : j.val = b
    · rw [if_pos h, dif_pos (by omega)]
    · rw [if_neg h, dif_neg (by omega)]
  · refine ⟨-EINVAL, ?_⟩
    have hD : setCols D b [v] = D := by
      ext i j
      simp only [setCols, of_apply, List.length_singleton]
      rw [dif_neg (by omega)]
    rw [hD]
    unfold mtxSetCol
    obtain ⟨r', rfl⟩ : ∃ r', r = r' + 1 := ⟨r - 1, by omega⟩
    have key : ∀ m : ℕ, forRet (m + 1) (fun i (m : Mtx XR) => do
        let x ← rd (arr v s) i
        let (rc, m) ← mtxSet m i b x
        if rc ≠ 0 then return Ctl.ret (rc, m) else return Ctl.next m) (mtxOf D t) =
        ok (Ctl.ret (-EINVAL, mtxOf D t)) := by
      intro m
      induction m with
      | zero =>
        rw [forRet, forRet, ok_bind, rd_lt (by simp [arr])]
        simp only [ok_bind]
        rw [mtxSet, if_pos (Or.inr (by simpa using hb)), ok_bind]
        simp only
        rw [if_pos (by decide)]
        rfl
      | succ m ih =>
        rw [forRet, ih, ok_bind]
    rw [mtxOf_rows, key, ok_bind]
    rfl

/-! ### The scan of the diagonal -/

theorem isSmall_fin (x : ℝ) : isSmall (XR.fin x) = true ↔ |x| < 1 / 1000000 := isZeroE_fin x

open Classical in
theorem free_take_succ (G : Matrix (Fin n) (Fin n) ℝ) (h : Fin n) :
    ((List.finRange n).take (h.val + 1)).filter (fun h => decide (|G h h| < 1 / 1000000)) =
      ((List.finRange n).take h.val).filter (fun h => decide (|G h h| < 1 / 1000000)) ++
        if |G h h| < 1 / 1000000 then [h] else [] := by
  rw [List.take_succ_eq_append_getElem (by simp), List.filter_append]
  congr 1
  simp only [List.getElem_finRange, List.filter_cons, List.filter_nil, Fin.cast_mk, Fin.eta, decide_eq_true_eq]

theorem free_take_all (G : Matrix (Fin n) (Fin n) ℝ) : open Classical in
    ((List.finRange n).take n).filter (fun h => decide (|G h h| < 1 / 1000000)) = freeCols G := by
  unfold freeCols
  rw [List.take_of_length_le (by simp)]

/-- The companion matrix during the scan. -/
noncomputable def scanned (G : Matrix (Fin n) (Fin n) ℝ) (m : ℕ) : Matrix (Fin n) (Fin n) ℝ :=
  open Classical in Matrix.of fun a b => if a = b ∧ b.val < m ∧ |G b b| < 1 / 1000000 then -1 else G a b

theorem collectEigen_eq (x0 : XR) (G : Matrix (Fin n) (Fin n) ℝ) (w s t : List XR) (x : Fin n → XR) (D : Matrix (Fin n) (Fin c) XR)
    (b : ℕ) : ∃ (M : Matrix (Fin n) (Fin n) ℝ) (y : Fin n → XR),
      collectEigen n x0 (mat G w) (vecOf x s) (mtxOf D t) b = ok (mat M w, vecOf y s,
        mtxOf (setCols D b ((freeCols G).map (nullVec G))) t, b + (freeCols G).length) := by
  classical
  unfold collectEigen
  have hloop := forN_sat (n := n) (f := fun h (s : XR × Mtx XR × Vec XR × Mtx XR × Nat) => do
    let (x, mi, f, dst, b) := s
    let (_, x) ← mtxGet mi h h x
    if isSmall x then do
      let (_, mi) ← mtxSet mi h h (lit (-1))
      let (_, fd) ← mtxGetCol mi h f.data
      let (_, f) ← vecNeg { f with data := fd }
      let (_, dst) ← mtxSetCol dst b f.data
      return (x, mi, f, dst, b + 1)
    else return (x, mi, f, dst, b)) (s := (x0, mat G w, vecOf x s, mtxOf D t, b))
    (fun m st => st.2.1 = mat (scanned G m) w ∧ (∃ y, st.2.2.1 = vecOf y s) ∧
      st.2.2.2.1 = mtxOf (setCols D b ((((List.finRange n).take m).filter
        (fun h => decide (|G h h| < 1 / 1000000))).map (nullVec G))) t ∧
      st.2.2.2.2 = b + (((List.finRange n).take m).filter (fun h => decide (|G h h| < 1 / 1000000))).length)
    ⟨by
      dsimp only
      congr 1
      ext a b
      simp [scanned], ⟨x, rfl⟩, by simp [setCols_nil], by simp⟩ (by
      rintro m hm ⟨x, mi, f, dst, b'⟩ ⟨h1, ⟨y, h2⟩, h3, h4⟩
      dsimp only at h1 h2 h3 h4 ⊢
      subst h1 h2 h3 h4
      obtain ⟨h, rfl⟩ : ∃ h : Fin n, h.val = m := ⟨⟨m, hm⟩, rfl⟩
      rw [mat_get]
      simp only [ok_bind]
      have hself : scanned G h h h = G h h := by
        simp [scanned]
      rw [hself]
      by_cases hs : |G h h| < 1 / 1000000
      · rw [if_pos ((isSmall_fin _).2 hs), XR.lit_eq, mat_set]
        simp only [ok_bind]
        have hsc : (Matrix.of fun a b => if a = h ∧ b = h then ((-1 : ℚ) : ℝ) else scanned G h a b) = scanned G (h.val + 1) := by
          ext a b
          simp only [scanned, of_apply]
          by_cases hb : b = h
          · subst hb
            by_cases ha : a = b
            · rw [if_pos ⟨ha, rfl⟩, if_pos ⟨ha, by omega, hs⟩]
              norm_num
            · rw [if_neg (fun h => ha h.1), if_neg (fun h => ha h.1), if_neg (fun h => ha h.1)]
          · rw [if_neg (fun h => hb h.2)]
            have : b.val ≠ h.val := fun h => hb (Fin.ext h)
            refine if_congr ?_ rfl rfl
            constructor
            · rintro ⟨p, q, r⟩
              exact ⟨p, by omega, r⟩
            · rintro ⟨p, q, r⟩
              exact ⟨p, by omega, r⟩
        rw [hsc, show (vecOf y s).data = arrOf y s from rfl, mat_getCol]
        simp only [ok_bind]
        rw [show ({ sz := (vecOf y s).sz, data := arr (fun i => scanned G (h.val + 1) i h) s } : Vec XR) =
          vec (fun i => scanned G (h.val + 1) i h) s from rfl, vecNeg_vec]
        simp only [ok_bind]
        have hnv : -(fun i => scanned G (h.val + 1) i h) = nullVec G h := by
          funext i
          simp only [Pi.neg_apply, scanned, of_apply, nullVec]
          by_cases hi : i = h
          · rw [if_pos hi, if_pos ⟨hi, by omega, hs⟩, neg_neg]
          · rw [if_neg hi, if_neg (fun h => hi h.1)]
        rw [hnv, vec_data]
        obtain ⟨rc, hrc⟩ := mtxSetCol_any (setCols D b ((((List.finRange n).take h.val).filter
          (fun h => decide (|G h h| < 1 / 1000000))).map (nullVec G))) t s
          (b + (((List.finRange n).take h.val).filter (fun h => decide (|G h h| < 1 / 1000000))).length) (nullVec G h) h.pos
        rw [hrc]
        simp only [ok_bind, pure_eq, sat_ok]
        rw [free_take_succ, if_pos hs]
        refine ⟨trivial, ⟨_, vec_eq_vecOf _ _⟩, ?_, ?_⟩
        · rw [List.map_append, ← setCols_append, List.length_map]
          rfl
        · rw [List.length_append]
          rfl
      · rw [if_neg (by rw [isSmall_fin]; exact hs)]
        simp only [pure_eq, sat_ok]
        rw [free_take_succ, if_neg hs, List.append_nil]
        refine ⟨?_, ⟨_, rfl⟩, rfl, rfl⟩
        congr 1
        ext a b
        simp only [scanned, of_apply]
        refine if_congr ?_ rfl rfl
        constructor
        · rintro ⟨p, q, r⟩
          exact ⟨p, by omega, r⟩
        · rintro ⟨p, q, r⟩
          refine ⟨p, ?_, r⟩
          by_contra hlt
          obtain rfl : b = h := Fin.ext (by omega)
          exact hs r)
  obtain ⟨⟨x', mi, f, dst, b'⟩, hst, h1, ⟨y, h2⟩, h3, h4⟩ := hloop
  dsimp only at h1 h2 h3 h4
  rw [free_take_all] at h3 h4
  refine ⟨scanned G n, y, ?_⟩
  rw [hst]
  simp only [ok_bind, pure_eq]
  rw [h1, h2, h3, h4]

theorem count_eq (x0 : XR) (G : Matrix (Fin n) (Fin n) ℝ) (w : List XR) : ∃ x, forN n (fun h (s : XR × Nat) => do
      let (_, x) ← mtxGet (mat G w) h h s.1
      return (x, if isSmall x then s.2 + 1 else s.2)) (x0, 0) = ok (x, (freeCols G).length) := by
  classical
  have hloop := forN_sat (n := n) (f := fun h (s : XR × Nat) => do
      let (_, x) ← mtxGet (mat G w) h h s.1
      return (x, if isSmall x then s.2 + 1 else s.2)) (s := (x0, 0))
    (fun m st => st.2 = (((List.finRange n).take m).filter (fun h => decide (|G h h| < 1 / 1000000))).length) (by simp) (by
      rintro m hm ⟨x, k⟩ h1
      dsimp only at h1 ⊢
      obtain ⟨h, rfl⟩ : ∃ h : Fin n, h.val = m := ⟨⟨m, hm⟩, rfl⟩
      rw [mat_get]
      simp only [ok_bind, pure_eq, sat_ok]
      rw [free_take_succ, List.length_append, ← h1]
      by_cases hs : |G h h| < 1 / 1000000
      · rw [if_pos ((isSmall_fin _).2 hs), if_pos hs]
        rfl
      · rw [if_neg (by rw [isSmall_fin]; exact hs), if_neg hs]
        rfl)
  obtain ⟨⟨x, k⟩, h1, h2⟩ := hloop
  rw [free_take_all] at h2
  exact ⟨x, by rw [h1, ← h2]⟩

/-! ### Reusing a buffer with another number of columns -/

/-- A matrix with `n` rows whose buffer has room for `n` columns. -/
def Big (n : ℕ) (m : Mtx XR) : Prop := m.rows = n ∧ n * n ≤ m.data.length

theorem Big.reshape {m : Mtx XR} (h : Big n m) (c : ℕ) (hc : c ≤ n) :
    ∃ D : Matrix (Fin n) (Fin c) XR, ({ m with cols := c } : Mtx XR) = mtxOf D (m.data.drop (n * c)) := by
  obtain ⟨rfl, hl⟩ := h
  obtain ⟨D, hD⟩ := mtxOf_of_wf ({ m with cols := c } : Mtx XR) (le_trans (Nat.mul_le_mul_left _ hc) hl)
  exact ⟨D, hD⟩

theorem Big.of {m : Mtx XR} (h : Big n m) (c : ℕ) (hc : c ≤ n) (D : Matrix (Fin n) (Fin c) XR) :
    Big n (mtxOf D (m.data.drop (n * c))) := by
  refine ⟨rfl, ?_⟩
  have h2 : (mtxOf D (m.data.drop (n * c))).data.length = n * c + (m.data.length - n * c) := by
    rw [mtxOf_eq, mkM_data]
    simp [mkD_length]
  have h1 := h.2
  have := Nat.mul_le_mul_left n hc
  omega

end Verif
