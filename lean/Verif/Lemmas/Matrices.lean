import Mathlib.Tactic.Linarith
import Mathlib.Tactic.Ring
import Verif.Spec.Matrix
import Verif.Lemmas.Vectors

/-! # Helper lemmas about matrices: a representation indexed by natural numbers -/

set_option linter.unusedSectionVars false

namespace Verif

open Out

section rep
variable {R : Type} [CReal R]

/-- Row-major cells of the matrix with entries `f i j`, then `t`. -/
def mkD (r c : ℕ) (f : ℕ → ℕ → R) (t : List R) : List R :=
  (List.range (r * c)).map (fun k => f (k / c) (k % c)) ++ t

/-- The matrix with entries `f i j`. -/
def mkM (r c : ℕ) (f : ℕ → ℕ → R) (t : List R) : Mtx R := ⟨r, c, mkD r c f t⟩

@[simp] theorem mkM_rows (r c : ℕ) (f : ℕ → ℕ → R) (t : List R) : (mkM r c f t).rows = r := rfl
@[simp] theorem mkM_cols (r c : ℕ) (f : ℕ → ℕ → R) (t : List R) : (mkM r c f t).cols = c := rfl
@[simp] theorem mkM_data (r c : ℕ) (f : ℕ → ℕ → R) (t : List R) :
    (mkM r c f t).data = mkD r c f t := rfl
@[simp] theorem mkD_length (r c : ℕ) (f : ℕ → ℕ → R) (t : List R) :
    (mkD r c f t).length = r * c + t.length := by simp [mkD]

theorem flat_lt {r c i j : ℕ} (hi : i < r) (hj : j < c) : i * c + j < r * c := by
  have : (i + 1) * c ≤ r * c := Nat.mul_le_mul_right c hi
  rw [Nat.add_mul] at this
  omega

theorem flat_div {c i j : ℕ} (hj : j < c) : (i * c + j) / c = i := by
  rw [Nat.add_comm, Nat.add_mul_div_right _ _ (by omega), Nat.div_eq_of_lt hj, Nat.zero_add]

theorem flat_mod {c i j : ℕ} (hj : j < c) : (i * c + j) % c = j := by
  rw [Nat.add_comm, Nat.add_mul_mod_self_right, Nat.mod_eq_of_lt hj]

/-- Update one entry. -/
def upd (f : ℕ → ℕ → R) (i j : ℕ) (x : R) : ℕ → ℕ → R := fun a b => if a = i ∧ b = j then x else f a b

theorem mkD_congr {r c : ℕ} {f g : ℕ → ℕ → R} {t : List R}
    (h : ∀ i, i < r → ∀ j, j < c → f i j = g i j) : mkD r c f t = mkD r c g t := by
  unfold mkD
  congr 1
  apply List.map_congr_left
  intro k hk
  rw [List.mem_range] at hk
  have hc : 0 < c := by
    rcases Nat.eq_zero_or_pos c with rfl | h
    · simp at hk
    · exact h
  exact h _ (Nat.div_lt_of_lt_mul (by rwa [Nat.mul_comm] at hk)) _ (Nat.mod_lt _ hc)

theorem mkM_congr {r c : ℕ} {f g : ℕ → ℕ → R} {t : List R}
    (h : ∀ i, i < r → ∀ j, j < c → f i j = g i j) : mkM r c f t = mkM r c g t := by
  unfold mkM
  rw [mkD_congr h]

theorem mkD_rdk {r c : ℕ} (f : ℕ → ℕ → R) (t : List R) {k : ℕ} (hk : k < r * c) :
    rd (mkD r c f t) k = ok (f (k / c) (k % c)) := by
  apply rd_of
  unfold mkD
  rw [List.getElem?_append_left (by simpa using hk)]
  simp [hk]

theorem mkD_rd {r c : ℕ} (f : ℕ → ℕ → R) (t : List R) {i j : ℕ} (hi : i < r) (hj : j < c) :
    rd (mkD r c f t) (i * c + j) = ok (f i j) := by
  rw [mkD_rdk _ _ (flat_lt hi hj), flat_div hj, flat_mod hj]

theorem mkD_wr {r c : ℕ} (f : ℕ → ℕ → R) (t : List R) (x : R) {i j : ℕ} (hi : i < r) (hj : j < c) :
    wr (mkD r c f t) (i * c + j) x = ok (mkD r c (upd f i j x) t) := by
  have hlt := flat_lt hi hj
  rw [wr_lt _ (by simp; omega)]
  congr 1
  unfold mkD
  rw [List.set_append_left _ _ (by simpa using hlt)]
  congr 1
  apply List.ext_getElem
  · simp
  · intro k h1 h2
    simp only [List.getElem_set, List.getElem_map, List.getElem_range, upd]
    by_cases h : i * c + j = k
    · subst h
      simp [flat_div hj, flat_mod hj]
    · rw [if_neg h, if_neg]
      rintro ⟨ha, hb⟩
      apply h
      rw [← ha, ← hb, Nat.mul_comm, Nat.div_add_mod]

theorem mkM_get {r c : ℕ} (f : ℕ → ℕ → R) (t : List R) (x : R) {i j : ℕ} (hi : i < r) (hj : j < c) :
    mtxGet (mkM r c f t) i j x = ok (0, f i j) := by
  unfold mtxGet
  rw [if_neg (by simp; omega)]
  simp [mkD_rd f t hi hj]

theorem mkM_get_oob {r c : ℕ} (f : ℕ → ℕ → R) (t : List R) (x : R) {i j : ℕ} (h : r ≤ i ∨ c ≤ j) :
    mtxGet (mkM r c f t) i j x = ok (-EINVAL, x) := by
  unfold mtxGet
  rw [if_pos (by simpa using h)]

theorem mkM_set {r c : ℕ} (f : ℕ → ℕ → R) (t : List R) (x : R) {i j : ℕ} (hi : i < r) (hj : j < c) :
    mtxSet (mkM r c f t) i j x = ok (0, mkM r c (upd f i j x) t) := by
  unfold mtxSet
  rw [if_neg (by simp; omega)]
  simp only [mkM_data, mkM_cols, mkD_wr f t x hi hj]
  rfl

/-- `F` up to position `(i, j)` in row-major order, `h` from there on. -/
def mix (i j : ℕ) (F h : ℕ → ℕ → R) : ℕ → ℕ → R :=
  fun a b => if a < i ∨ (a = i ∧ b < j) then F a b else h a b

theorem mix_self (F h : ℕ → ℕ → R) (i j : ℕ) : mix i j F h i j = h i j := by simp [mix]

theorem upd_mix (F h : ℕ → ℕ → R) (i j : ℕ) : upd (mix i j F h) i j (F i j) = mix i (j + 1) F h := by
  funext a b
  unfold upd mix
  by_cases h1 : a = i ∧ b = j
  · obtain ⟨rfl, rfl⟩ := h1
    simp
  · rw [if_neg h1]
    split_ifs <;> first | rfl | (exfalso; omega)

/-- A nested loop that writes entry `(i, j)` in pass `(i, j)`. `rep` turns entries into a machine state. -/
theorem forN_fill2 {σ : Type} (rep : (ℕ → ℕ → R) → σ) {r c : ℕ}
    (hrep : ∀ f g, (∀ i, i < r → ∀ j, j < c → f i j = g i j) → rep f = rep g)
    {body : ℕ → ℕ → σ → Out σ} {h : ℕ → ℕ → R} (F : ℕ → ℕ → R)
    (hb : ∀ i, i < r → ∀ j, j < c →
      body i j (rep (mix i j F h)) = ok (rep (upd (mix i j F h) i j (F i j)))) :
    forN r (fun i s => forN c (fun j s => body i j s) s) (rep h) = ok (rep F) := by
  have h1 : forN r (fun i s => forN c (fun j s => body i j s) s) (rep h) = ok (rep (mix r 0 F h)) := by
    refine forN_eq (fun i => rep (mix i 0 F h)) ?_ ?_
    · apply hrep
      intro i _ j _
      simp [mix]
    · intro i hi
      have h2 : forN c (fun j s => body i j s) (rep (mix i 0 F h)) = ok (rep (mix i c F h)) := by
        refine forN_eq (fun j => rep (mix i j F h)) rfl ?_
        intro j hj
        rw [hb i hi j hj, upd_mix]
      rw [h2]
      congr 1
      apply hrep
      intro a _ b hb
      unfold mix
      split_ifs <;> first | rfl | (exfalso; omega)
  rw [h1]
  congr 1
  apply hrep
  intro a ha b _
  simp [mix, ha]

theorem forRet_next {σ ρ : Type} {n : Nat} {f : Nat → σ → Out (Ctl σ ρ)} {s : σ} (g : Nat → σ)
    (h0 : g 0 = s) (hs : ∀ i, i < n → f i (g i) = ok (.next (g (i + 1)))) :
    forRet n f s = ok (.next (g n)) := by
  induction n with
  | zero => rw [forRet, h0]
  | succ n ih =>
    rw [forRet, ih fun i hi => hs i (by omega)]
    exact hs n (by omega)

/-- The same for loops that can return early but do not. -/
theorem forEntries_fill {σ : Type} (rep : (ℕ → ℕ → R) → σ) {r c : ℕ}
    (hrep : ∀ f g, (∀ i, i < r → ∀ j, j < c → f i j = g i j) → rep f = rep g)
    {body : ℕ → ℕ → σ → Out (Int × σ)} {h : ℕ → ℕ → R} (F : ℕ → ℕ → R)
    (hb : ∀ i, i < r → ∀ j, j < c →
      body i j (rep (mix i j F h)) = ok (0, rep (upd (mix i j F h) i j (F i j)))) :
    forEntries r c body (rep h) = ok (0, rep F) := by
  unfold forEntries
  have h1 : forRet r (fun i s => do
    forRet c (fun j s => do
      let (rc, s) ← body i j s
      if rc ≠ 0 then return Ctl.ret (rc, s) else return Ctl.next s) s) (rep h) =
      ok (.next (rep (mix r 0 F h))) := by
    refine forRet_next (fun i => rep (mix i 0 F h)) ?_ ?_
    · apply hrep
      intro i _ j _
      simp [mix]
    · intro i hi
      have h2 : forRet c (fun j s => do
          let (rc, s) ← body i j s
          if rc ≠ 0 then return (Ctl.ret (rc, s) : Ctl σ (Int × σ)) else return Ctl.next s)
          (rep (mix i 0 F h)) = ok (.next (rep (mix i c F h))) := by
        refine forRet_next (fun j => rep (mix i j F h)) rfl ?_
        intro j hj
        rw [hb i hi j hj, upd_mix]
        simp
      rw [h2]
      congr 2
      apply hrep
      intro a _ b hb
      unfold mix
      split_ifs <;> first | rfl | (exfalso; omega)
  rw [h1]
  simp only [ok_bind, pure_eq]
  congr 2
  apply hrep
  intro a ha b _
  simp [mix, ha]

/-- Any buffer that is large enough is such a representation. -/
theorem mkD_of_length {r c : ℕ} (d : List R) (hd : r * c ≤ d.length) :
    ∃ f, d = mkD r c f (d.drop (r * c)) := by
  refine ⟨fun i j => (d[i * c + j]?).getD (lit 0), ?_⟩
  unfold mkD
  conv_lhs => rw [← List.take_append_drop (r * c) d]
  congr 1
  apply List.ext_getElem
  · simp; omega
  · intro k h1 h2
    simp only [List.length_map, List.length_range] at h2
    simp only [List.getElem_take, List.getElem_map, List.getElem_range]
    have : k / c * c + k % c = k := by rw [Nat.mul_comm, Nat.div_add_mod]
    rw [this]
    simp [show k < d.length by omega]

theorem mkM_of_wf (m : Mtx R) (h : m.WF) :
    ∃ f, m = mkM m.rows m.cols f (m.data.drop (m.rows * m.cols)) := by
  obtain ⟨f, hf⟩ := mkD_of_length m.data h
  exact ⟨f, by unfold mkM; rw [← hf]⟩

theorem mkD_take {r c : ℕ} (f : ℕ → ℕ → R) (t : List R) :
    (mkD r c f t).take (r * c) = mkD r c f [] := by
  unfold mkD
  rw [List.take_left' (by simp)]
  simp

theorem mkD_drop {r c : ℕ} (f : ℕ → ℕ → R) (t : List R) :
    (mkD r c f t).drop (r * c) = t := by
  unfold mkD
  rw [List.drop_left' (by simp)]

theorem mkD_nil_append {r c : ℕ} (f : ℕ → ℕ → R) (t : List R) :
    mkD r c f [] ++ t = mkD r c f t := by
  unfold mkD
  simp

/-! ### Link with matrices over `Fin` -/

/-- Entries of a matrix as a function of natural numbers. -/
def ext {r c : ℕ} (A : Matrix (Fin r) (Fin c) R) : ℕ → ℕ → R :=
  fun i j => if h : i < r ∧ j < c then A ⟨i, h.1⟩ ⟨j, h.2⟩ else lit 0

theorem ext_lt {r c : ℕ} (A : Matrix (Fin r) (Fin c) R) {i j : ℕ} (hi : i < r) (hj : j < c) :
    ext A i j = A ⟨i, hi⟩ ⟨j, hj⟩ := by
  simp [ext, hi, hj]

@[simp] theorem ext_fin {r c : ℕ} (A : Matrix (Fin r) (Fin c) R) (i : Fin r) (j : Fin c) :
    ext A i j = A i j := ext_lt A i.2 j.2

theorem mkD_eq_ofFn (r c : ℕ) (f : ℕ → ℕ → R) (t : List R) :
    mkD r c f t = (List.ofFn fun k : Fin (r * c) => f (k.divNat (n := c)) (k.modNat (n := c))) ++ t := by
  unfold mkD
  congr 1
  apply List.ext_getElem
  · simp
  · intro k h1 h2
    simp [Fin.divNat, Fin.modNat]

theorem mtxOf_eq {r c : ℕ} (A : Matrix (Fin r) (Fin c) R) (t : List R) :
    mtxOf A t = mkM r c (ext A) t := by
  unfold mtxOf mkM
  rw [mkD_eq_ofFn]
  congr 2
  congr 1
  funext k
  rw [ext_fin]

theorem mkM_eq (r c : ℕ) (f : ℕ → ℕ → R) (t : List R) :
    mkM r c f t = mtxOf (Matrix.of fun (i : Fin r) (j : Fin c) => f i j) t := by
  rw [mtxOf_eq]
  apply mkM_congr
  intro i hi j hj
  rw [ext_lt _ hi hj]
  rfl

/-- To show that a representation holds `A`, compare entries. -/
theorem mkM_eq_mtxOf {r c : ℕ} {f : ℕ → ℕ → R} {t : List R} (A : Matrix (Fin r) (Fin c) R)
    (h : ∀ (i : Fin r) (j : Fin c), f i j = A i j) : mkM r c f t = mtxOf A t := by
  rw [mtxOf_eq]
  apply mkM_congr
  intro i hi j hj
  rw [ext_lt _ hi hj]
  exact h ⟨i, hi⟩ ⟨j, hj⟩

theorem mtxOf_of_wf (m : Mtx R) (h : m.WF) :
    ∃ A : Matrix (Fin m.rows) (Fin m.cols) R, m = mtxOf A (m.data.drop (m.rows * m.cols)) := by
  obtain ⟨f, hf⟩ := mkM_of_wf m h
  rw [mkM_eq] at hf
  exact ⟨_, hf⟩

@[simp] theorem mtxOf_rows {r c : ℕ} (A : Matrix (Fin r) (Fin c) R) (t : List R) :
    (mtxOf A t).rows = r := rfl
@[simp] theorem mtxOf_cols {r c : ℕ} (A : Matrix (Fin r) (Fin c) R) (t : List R) :
    (mtxOf A t).cols = c := rfl
@[simp] theorem mat_rows {r c : ℕ} (A : Matrix (Fin r) (Fin c) ℝ) (t : List XR) :
    (mat A t).rows = r := rfl
@[simp] theorem mat_cols {r c : ℕ} (A : Matrix (Fin r) (Fin c) ℝ) (t : List XR) :
    (mat A t).cols = c := rfl

theorem mtxOf_wf {r c : ℕ} (A : Matrix (Fin r) (Fin c) R) (t : List R) : (mtxOf A t).WF := by
  rw [mtxOf_eq]
  simp [Mtx.WF]

theorem mtxOf_inj {r c : ℕ} {A B : Matrix (Fin r) (Fin c) R} {t u : List R}
    (h : mtxOf A t = mtxOf B u) : A = B ∧ t = u := by
  rw [mtxOf_eq, mtxOf_eq] at h
  have hg : ∀ i j, mtxGet (mkM r c (ext A) t) i j (lit 0) = mtxGet (mkM r c (ext B) u) i j (lit 0) := by
    intro i j
    rw [h]
  constructor
  · funext i j
    have := hg i j
    rw [mkM_get _ _ _ i.2 j.2, mkM_get _ _ _ i.2 j.2, ext_fin, ext_fin] at this
    simpa using this
  · have h2 := congrArg Mtx.data h
    have := congrArg (List.drop (r * c)) h2
    rwa [mkM_data, mkM_data, mkD_drop, mkD_drop] at this

/-- Uninitialised matrices hold something. -/
theorem uninit_eq (junk : ℕ → R) (r c : ℕ) :
    ∃ A : Matrix (Fin r) (Fin c) R, Mtx.uninit junk r c = mtxOf A [] := by
  obtain ⟨A, h⟩ := mtxOf_of_wf (Mtx.uninit junk r c) (by simp [Mtx.WF, Mtx.uninit])
  refine ⟨A, ?_⟩
  conv_lhs => rw [h]
  have h2 : List.drop (r * c) (List.map junk (List.range (r * c))) = [] :=
    List.drop_eq_nil_of_le (by simp)
  simp only [Mtx.uninit, h2]

end rep

/-- Every finite well-formed matrix is `mat A t` for some real `A`. -/
theorem mat_of_finite (m : Mtx XR) (h : m.WF) (hf : ∀ x ∈ m.data.take (m.rows * m.cols), ∃ r, x = XR.fin r) :
    ∃ A : Matrix (Fin m.rows) (Fin m.cols) ℝ, m = mat A (m.data.drop (m.rows * m.cols)) := by
  obtain ⟨A, hA⟩ := mtxOf_of_wf m h
  have : ∀ i j, ∃ r, A i j = XR.fin r := by
    intro i j
    apply hf
    rw [hA, mtxOf_eq]
    have := mkD_rd (r := m.rows) (c := m.cols) (ext A) [] i.2 j.2
    rw [rd_ok_iff, ext_fin] at this
    have h3 := List.mem_of_getElem? this
    simp only [mkM_data, mkM_rows, mkM_cols]
    rwa [mkD_take]
  choose B hB using this
  refine ⟨fun i j => B i j, ?_⟩
  conv_lhs => rw [hA]
  unfold mat
  congr 1
  funext i j
  exact hB i j

end Verif

namespace Verif
open Out
section flat
variable {R : Type} [CReal R] {r c : ℕ}

theorem pos_of_lt_mul {k : ℕ} (hk : k < r * c) : 0 < c := by
  rcases Nat.eq_zero_or_pos c with rfl | h
  · simp at hk
  · exact h

theorem div_lt_rows {k : ℕ} (hk : k < r * c) : k / c < r :=
  Nat.div_lt_of_lt_mul (by rwa [Nat.mul_comm] at hk)

theorem div_mul_add_mod (k : ℕ) : k / c * c + k % c = k := by rw [Nat.mul_comm, Nat.div_add_mod]

/-- `F` in the first `k` cells, `h` from there on. -/
def fmix (c k : ℕ) (F h : ℕ → ℕ → R) : ℕ → ℕ → R := fun a b => if a * c + b < k then F a b else h a b

theorem mkD_fmix_rd {k : ℕ} (F h : ℕ → ℕ → R) (t : List R) (hk : k < r * c) :
    rd (mkD r c (fmix c k F h) t) k = ok (h (k / c) (k % c)) := by
  rw [mkD_rdk _ _ hk]
  simp [fmix, div_mul_add_mod]

theorem mkD_fmix_wr {k : ℕ} (F h : ℕ → ℕ → R) (t : List R) (hk : k < r * c) :
    wr (mkD r c (fmix c k F h) t) k (F (k / c) (k % c)) = ok (mkD r c (fmix c (k + 1) F h) t) := by
  have hc := pos_of_lt_mul hk
  have hw := mkD_wr (fmix c k F h) t (F (k / c) (k % c)) (div_lt_rows hk) (Nat.mod_lt k hc)
  rw [div_mul_add_mod] at hw
  rw [hw]
  congr 1
  apply mkD_congr
  intro a _ b hb
  unfold upd fmix
  by_cases h1 : a = k / c ∧ b = k % c
  · rw [if_pos h1, h1.1, h1.2, if_pos (by rw [div_mul_add_mod]; omega)]
  · rw [if_neg h1]
    have : a * c + b ≠ k := by
      rintro rfl
      exact h1 ⟨(flat_div hb).symm, (flat_mod hb).symm⟩
    split_ifs <;> first | rfl | (exfalso; omega)

theorem fmix_zero (F h : ℕ → ℕ → R) : fmix c 0 F h = h := by
  funext a b
  simp [fmix]

theorem mkD_fmix_full (F h : ℕ → ℕ → R) (t : List R) :
    mkD r c (fmix c (r * c) F h) t = mkD r c F t := by
  apply mkD_congr
  intro i hi j hj
  simp [fmix, flat_lt hi hj]

/-- A loop over all cells. -/
theorem forN_flat {body : ℕ → List R → Out (List R)} {h : ℕ → ℕ → R} {t : List R} (F : ℕ → ℕ → R)
    (hb : ∀ k, k < r * c → body k (mkD r c (fmix c k F h) t) =
      wr (mkD r c (fmix c k F h) t) k (F (k / c) (k % c))) :
    forN (r * c) body (mkD r c h t) = ok (mkD r c F t) := by
  rw [forN_eq (fun k => mkD r c (fmix c k F h) t) (by rw [fmix_zero]), mkD_fmix_full]
  intro k hk
  rw [hb k hk, mkD_fmix_wr _ _ _ hk]

theorem forRet_flat {ρ : Type} {body : ℕ → List R → Out (Ctl (List R) ρ)} {h : ℕ → ℕ → R} {t : List R}
    (F : ℕ → ℕ → R)
    (hb : ∀ k, k < r * c → body k (mkD r c (fmix c k F h) t) =
      (do
        let d ← wr (mkD r c (fmix c k F h) t) k (F (k / c) (k % c))
        return Ctl.next d)) :
    forRet (r * c) body (mkD r c h t) = ok (.next (mkD r c F t)) := by
  rw [forRet_next (fun k => mkD r c (fmix c k F h) t) (by rw [fmix_zero]), mkD_fmix_full]
  intro k hk
  rw [hb k hk, mkD_fmix_wr _ _ _ hk]
  rfl

/-- A loop over row `i`. -/
theorem forN_row {body : ℕ → List R → Out (List R)} {h : ℕ → ℕ → R} {t : List R} {i : ℕ} (F : ℕ → R)
    (hi : i < r)
    (hb : ∀ k, k < c → ∀ g : ℕ → ℕ → R, (∀ a b, (a = i → k ≤ b) → g a b = h a b) →
      body k (mkD r c g t) = wr (mkD r c g t) (i * c + k) (F k)) :
    forN c body (mkD r c h t) = ok (mkD r c (fun a b => if a = i then F b else h a b) t) := by
  rw [forN_eq (fun k => mkD r c (fun a b => if a = i ∧ b < k then F b else h a b) t)]
  · congr 1
    apply mkD_congr
    intro a _ b hb
    simp [hb]
  · apply mkD_congr
    simp
  · intro k hk
    rw [hb k hk, mkD_wr _ _ _ hi hk]
    · congr 1
      apply mkD_congr
      intro a _ b _
      unfold upd
      by_cases h1 : a = i ∧ b = k
      · obtain ⟨rfl, rfl⟩ := h1
        simp
      · rw [if_neg h1]
        have : (a = i ∧ b < k + 1) ↔ (a = i ∧ b < k) := by omega
        simp only [this]
    · intro a b hab
      rw [if_neg]
      rintro ⟨h1, h2⟩
      have := hab h1
      omega

/-- Entries of a real matrix as a function of natural numbers. -/
theorem ext_map {A : Matrix (Fin r) (Fin c) ℝ} (i j : ℕ) :
    ext (A.map XR.fin) i j = XR.fin (if h : i < r ∧ j < c then A ⟨i, h.1⟩ ⟨j, h.2⟩ else 0) := by
  unfold ext
  split_ifs
  · rfl
  · simp

end flat
end Verif
