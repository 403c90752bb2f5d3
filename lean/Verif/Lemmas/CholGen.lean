import Verif.Lemmas.MultGen
import Verif.Model.MatDecomp

/-!
# The Cholesky factorisation for every kind of scalar, as the recurrence the loops evaluate
-/

namespace Verif

open Out

variable {R : Type} [CReal R] {n : ℕ}

/-- A family of columns in which column `j` is given in terms of the columns before it exists. -/
theorem exists_cols {R : Type} [Inhabited R] (Φ : ℕ → ℕ → (ℕ → ℕ → R) → R)
    (hΦ : ∀ i j M N, (∀ a, ∀ m < j, M a m = N a m) → Φ i j M = Φ i j N) : ∃ c : ℕ → ℕ → R, ∀ i j, c i j = Φ i j c := by
  let cols : ℕ → ℕ → ℕ → R := fun J => Nat.rec (fun _ _ => default) (fun J M i k => if k = J then Φ i J M else M i k) J
  have hs : ∀ J i k, cols (J + 1) i k = if k = J then Φ i J (cols J) else cols J i k := fun _ _ _ => rfl
  have hk : ∀ J i k, k < J → cols J i k = cols (k + 1) i k := by
    intro J
    induction J with
    | zero => intro i k h; omega
    | succ J ih =>
      intro i k h
      rcases Nat.lt_or_ge k J with h' | h'
      · rw [hs, if_neg (by omega), ih i k h']
      · rw [show k = J by omega]
  refine ⟨fun i k => cols (k + 1) i k, fun i j => ?_⟩
  change cols (j + 1) i j = _
  rw [hs, if_pos rfl]
  exact hΦ _ _ _ _ fun a m hm => hk j a m hm

/-- The recurrence of the Cholesky factor. -/
structure CholRec (a : ℕ → ℕ → R) (c : ℕ → ℕ → R) : Prop where
  up : ∀ i j, i < j → c i j = lit 0
  diag : ∀ j, c j j = CReal.sqrt (a j j - accSum (fun k => c j k * c j k) j)
  low : ∀ i j, j < i → c i j = (a i j - accSum (fun k => c i k * c j k) j) / c j j

theorem accSum_congr' {f g : ℕ → R} {n : ℕ} (h : ∀ i < n, f i = g i) : accSum f n = accSum g n := by
  induction n with
  | zero => rfl
  | succ n ih => rw [accSum, accSum, ih fun i hi => h i (by omega), h n (by omega)]

theorem exists_cholRec (a : ℕ → ℕ → R) : ∃ c, CholRec a c := by
  have : Inhabited R := ⟨lit 0⟩
  obtain ⟨c, hc⟩ := exists_cols (fun i j M => if i < j then lit 0
    else if i = j then CReal.sqrt (a j j - accSum (fun k => M j k * M j k) j)
    else (a i j - accSum (fun k => M i k * M j k) j) / CReal.sqrt (a j j - accSum (fun k => M j k * M j k) j)) (by
      intro i j M N h
      have e : ∀ i, accSum (fun k => M i k * M j k) j = accSum (fun k => N i k * N j k) j :=
        fun i => accSum_congr' fun k hk => by rw [h i k hk, h j k hk]
      rw [e, e])
  have hd : ∀ j, c j j = CReal.sqrt (a j j - accSum (fun k => c j k * c j k) j) := by
    intro j
    rw [hc j j, if_neg (lt_irrefl _), if_pos rfl]
  refine ⟨c, fun i j h => ?_, hd, fun i j h => ?_⟩
  · rw [hc, if_pos h]
  · rw [hd j, hc i j, if_neg (by omega), if_neg (by omega)]

/-- The symmetry test passes when no two mirrored elements compare different. -/
theorem choleskyAsym_gen (x0 : R) (A : Matrix (Fin n) (Fin n) R) (t : List R) (h : ∀ i j, CReal.ne (A i j) (A j i) = false) :
    choleskyAsym x0 (mtxOf A t) = ok false := by
  unfold choleskyAsym
  obtain ⟨x, hx, hP⟩ := forRet_sat (n := n) (ρ := Bool) (f := fun i s =>
    forRet n (fun j (s : R × R) => do
      let (_, a) ← mtxGet (mtxOf A t) i j s.1
      let (_, b) ← mtxGet (mtxOf A t) j i s.2
      if CReal.ne a b then return Ctl.ret true else return Ctl.next (a, b)) s) (s := (x0, x0))
    (fun _ _ => True) (fun _ => False) trivial (by
      rintro p hp s -
      refine Out.sat.mono (forRet_sat (fun _ _ => True) (fun _ => False) trivial ?_) ?_
      · rintro q hq s -
        dsimp only
        obtain ⟨pp, rfl⟩ : ∃ pp : Fin n, pp.val = p := ⟨⟨p, hp⟩, rfl⟩
        obtain ⟨qq, rfl⟩ : ∃ qq : Fin n, qq.val = q := ⟨⟨q, hq⟩, rfl⟩
        rw [mtx_get_correct, ok_bind]
        dsimp only
        rw [mtx_get_correct, ok_bind]
        dsimp only
        rw [h pp qq]
        exact (sat_ok _ _).2 trivial
      · rintro (s | x) h
        · trivial
        · exact h)
  rw [mtxOf_rows, hx]
  rcases x with s | b
  · rfl
  · exact hP.elim

/-- The part of `c` the algorithm has filled in when it works on column `j`, down to row `i` (exclusive). -/
def cholPart (n : ℕ) (c : ℕ → ℕ → R) (j i : ℕ) : Matrix (Fin n) (Fin n) R :=
  Matrix.of fun a b => if b.val < j ∨ (b.val = j ∧ a.val < i) then c a b else lit 0

theorem cholPart_set (c : ℕ → ℕ → R) (j i : Fin n) :
    (Matrix.of fun a b => if a = i ∧ b = j then c i j else cholPart n c j i a b) = cholPart n c j (i.val + 1) := by
  ext a b
  simp only [cholPart, Matrix.of_apply]
  by_cases h : a = i ∧ b = j
  · rw [if_pos h, if_pos (by rw [h.1, h.2]; omega), h.1, h.2]
  · rw [if_neg h]
    refine if_congr ?_ rfl rfl
    rw [Fin.ext_iff, Fin.ext_iff] at h
    omega

theorem mtxCholesky_gen (x0 : R) (a c : ℕ → ℕ → R) (B : Matrix (Fin n) (Fin n) R) (t u : List R)
    (hs : ∀ i j : Fin n, CReal.ne (a i j) (a j i) = false) (hc : CholRec a c) :
    mtxCholesky x0 (mtxOf (Matrix.of fun i j : Fin n => a i j) t) (mtxOf B u) = ok (0, mtxOf (Matrix.of fun i j : Fin n => c i j) u) := by
  unfold mtxCholesky
  rw [if_neg (by simp), choleskyAsym_gen x0 (Matrix.of fun i j : Fin n => a i j) t hs, ok_bind, if_neg (by simp), if_neg (by simp), if_neg (by simp)]
  rw [(mtx_init_empty B u).1, ok_bind]
  simp only [mtxOf_cols]
  have hstart : (Matrix.of fun (_ : Fin n) (_ : Fin n) => (lit 0 : R)) = cholPart n c 0 0 := by
    ext a b
    simp [cholPart]
  rw [hstart]
  generalize hA : mtxOf (Matrix.of fun i j : Fin n => a i j) t = m
  have hm : ∀ (i j : Fin n) x, mtxGet m i j x = ok (0, a i j) := by
    intro i j x
    rw [← hA, mtx_get_correct]
    rfl
  suffices h : (forN n (fun j (s : R × R × Mtx R) => do
        let (x, y, l) := s
        let (sum, x) ← forN j (fun k (s : R × R) => do
          let (_, x) ← mtxGet l j k s.2
          return (s.1 + x * x, x)) (lit 0, x)
        let (_, x) ← mtxGet m j j x
        let (_, l) ← mtxSet l j j (CReal.sqrt (x - sum))
        forN (n - (j + 1)) (fun i' (s : R × R × Mtx R) => do
          let i := j + 1 + i'
          let (x, y, l) := s
          let (sum, x, y) ← forN j (fun k (s : R × R × R) => do
            let (_, x) ← mtxGet l j k s.2.1
            let (_, y) ← mtxGet l i k s.2.2
            return (s.1 + y * x, x, y)) (lit 0, x, y)
          let (_, x) ← mtxGet l j j x
          let (_, y) ← mtxGet m i j y
          let (_, l) ← mtxSet l i j ((y - sum) / x)
          return (x, y, l)) (x, y, l)) (x0, x0, mtxOf (cholPart n c 0 0) u)).sat fun s => s.2.2 = mtxOf (Matrix.of fun i j : Fin n => c i j) u by
    obtain ⟨s, hs, h2⟩ := h
    rw [hs, ok_bind, h2]
    rfl
  refine (forN_sat (fun j s => s.2.2 = mtxOf (cholPart n c j 0) u) rfl ?_).mono ?_
  · rintro j hj ⟨x, y, l⟩ hl
    dsimp only at hl ⊢
    subst hl
    obtain ⟨jj, rfl⟩ : ∃ jj : Fin n, jj.val = j := ⟨⟨j, hj⟩, rfl⟩
    have hsum : (forN jj.val (fun k (s : R × R) => do
          let (_, x) ← mtxGet (mtxOf (cholPart n c jj 0) u) jj k s.2
          return (s.1 + x * x, x)) (lit 0, x)).sat fun s => s.1 = accSum (fun k => c jj k * c jj k) jj := by
      refine forN_sat (fun k (s : R × R) => s.1 = accSum (fun k => c jj k * c jj k) k) rfl ?_
      rintro k hk ⟨s, x⟩ hs
      dsimp only at hs ⊢
      obtain ⟨kk, rfl⟩ : ∃ kk : Fin n, kk.val = k := ⟨⟨k, by omega⟩, rfl⟩
      rw [mtx_get_correct, ok_bind]
      dsimp only
      rw [pure_eq, sat_ok]
      dsimp only
      rw [hs, accSum]
      simp only [cholPart, Matrix.of_apply]
      rw [if_pos (Or.inl hk)]
    obtain ⟨⟨sum, x'⟩, hs1, hs2⟩ := hsum
    rw [hs1, ok_bind]
    dsimp only at hs2 ⊢
    rw [hm, ok_bind]
    dsimp only
    rw [hs2, ← hc.diag, mtx_set_correct, ok_bind]
    dsimp only
    have hset : (Matrix.of fun a b => if a = jj ∧ b = jj then c jj jj else cholPart n c jj 0 a b) =
        cholPart n c jj (jj.val + 1) := by
      rw [← cholPart_set]
      congr 1
      funext a b
      refine if_congr Iff.rfl rfl ?_
      simp only [cholPart, Matrix.of_apply]
      by_cases h : b.val = jj.val ∧ a.val < jj.val
      · rw [if_neg (by omega), if_pos (by omega), hc.up _ _ (by omega)]
      · exact if_congr (by omega) rfl rfl
    rw [hset]
    refine (forN_sat (fun i' s => s.2.2 = mtxOf (cholPart n c jj (jj.val + 1 + i')) u) rfl ?_).mono ?_
    · rintro i' hi' ⟨x, y, l⟩ hl
      dsimp only at hl ⊢
      subst hl
      obtain ⟨ii, hii⟩ : ∃ ii : Fin n, ii.val = jj.val + 1 + i' := ⟨⟨jj.val + 1 + i', by omega⟩, rfl⟩
      rw [show jj.val + 1 + (i' + 1) = jj.val + 1 + i' + 1 by omega]
      rw [← hii]
      have hsum : (forN jj.val (fun k (s : R × R × R) => do
            let (_, x) ← mtxGet (mtxOf (cholPart n c jj ii) u) jj k s.2.1
            let (_, y) ← mtxGet (mtxOf (cholPart n c jj ii) u) ii k s.2.2
            return (s.1 + y * x, x, y)) (lit 0, x, y)).sat fun s =>
            s.1 = accSum (fun k => c ii k * c jj k) jj := by
        refine forN_sat (fun k (s : R × R × R) => s.1 = accSum (fun k => c ii k * c jj k) k) rfl ?_
        rintro k hk ⟨s, x, y⟩ hs
        dsimp only at hs ⊢
        obtain ⟨kk, rfl⟩ : ∃ kk : Fin n, kk.val = k := ⟨⟨k, by omega⟩, rfl⟩
        rw [mtx_get_correct, ok_bind]
        dsimp only
        rw [mtx_get_correct, ok_bind]
        dsimp only
        rw [pure_eq, sat_ok]
        dsimp only
        rw [hs, accSum]
        simp only [cholPart, Matrix.of_apply]
        rw [if_pos (Or.inl hk), if_pos (Or.inl hk)]
      obtain ⟨⟨sum, x', y'⟩, hs1, hs2⟩ := hsum
      rw [hs1, ok_bind]
      dsimp only at hs2 ⊢
      rw [mtx_get_correct, ok_bind]
      dsimp only
      rw [hm, ok_bind]
      dsimp only
      have hdiag : cholPart n c jj ii jj jj = c jj jj := by
        simp only [cholPart, Matrix.of_apply]
        rw [if_pos (Or.inr ⟨trivial, by omega⟩)]
      rw [hs2, hdiag, ← hc.low _ _ (by omega), mtx_set_correct, ok_bind]
      dsimp only
      rw [pure_eq, sat_ok, cholPart_set]
    · rintro ⟨x, y, l⟩ hl
      dsimp only at hl ⊢
      rw [hl]
      congr 1
      ext a b
      simp only [cholPart, Matrix.of_apply]
      exact if_congr (by have := a.2; omega) rfl rfl
  · rintro ⟨x, y, l⟩ hl
    dsimp only at hl ⊢
    rw [hl]
    congr 1
    ext a b
    simp only [cholPart, Matrix.of_apply]
    rw [if_pos (Or.inl b.2)]

end Verif
