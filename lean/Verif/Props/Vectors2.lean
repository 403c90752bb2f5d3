import Mathlib.Analysis.InnerProductSpace.PiL2
import Mathlib.LinearAlgebra.CrossProduct
import Mathlib.LinearAlgebra.Matrix.DotProduct
import Verif.Props.Vectors1

/-!
# Properties of vectors: sums, Euclidean geometry, reversal, predicates (C04–C11, C13)
-/

set_option linter.unusedSectionVars false

namespace Verif

open Out
open scoped Matrix

variable {R : Type} [CReal R]

/-! ## C04: sum and mean of a list of vectors -/

theorem vecSum_check {v : List (Vec R)} {n : Nat} {m : Nat} (hn : v.length = n) :
    forRet n (fun i (_ : Unit) => do
      let vi ← rd v i
      if m ≠ vi.sz then return Ctl.ret (-EINVAL) else return Ctl.next ()) () =
    ok (if v.any (fun x => x.sz ≠ m) then Ctl.ret (-EINVAL) else Ctl.next ()) := by
  rw [forRet_unit (fun i => (v[i]?.map fun x => decide (x.sz ≠ m)).getD false) (-EINVAL)]
  · congr 3
    have : v.any (fun x => x.sz ≠ m) =
        (List.range n).any (fun i => (v[i]?.map fun x => decide (x.sz ≠ m)).getD false) := by
      rw [Bool.eq_iff_iff, List.any_eq_true, List.any_eq_true]
      constructor
      · rintro ⟨x, hx, hp⟩
        obtain ⟨i, hi, rfl⟩ := List.getElem_of_mem hx
        exact ⟨i, by simpa [← hn] using hi, by simpa [hi] using hp⟩
      · rintro ⟨i, hi, hp⟩
        have hi' : i < v.length := by simpa [hn] using hi
        exact ⟨v[i], List.getElem_mem _, by simpa [hi'] using hp⟩
    rw [this]
  · intro i hi
    rw [rd_lt (by omega : i < v.length)]
    simp only [ok_bind, show i < v.length by omega, List.getElem?_eq_getElem, Option.map_some,
      Option.getD_some]
    by_cases h : v[i].sz = m
    · simp [h]
    · simp [h, Ne.symm h]

/-- C04, what the code really does: `zsl_vec_sum` adds all vectors *onto the previous contents* of `w`.
Different sizes (or `n = 0`) give `-EINVAL` and write nothing. -/
theorem vec_sum_accumulates (v0 : Vec R) (vs : List (Vec R)) (w : Vec R)
    (hv : ∀ x ∈ v0 :: vs, x.WF) (hw : v0.sz ≤ w.data.length) :
    vecSum (v0 :: vs) (vs.length + 1) w =
      if (∀ x ∈ vs, x.sz = v0.sz) then
        ok (0, ⟨v0.sz, (v0 :: vs).foldl (fun acc x => List.zipWith (· + ·) acc x.vals)
          (w.data.take v0.sz) ++ w.data.drop v0.sz⟩)
      else ok (-EINVAL, w) := by
  unfold vecSum
  rw [if_neg (by omega)]
  have hrd : rd (v0 :: vs) 0 = ok v0 := rfl
  rw [hrd, ok_bind]
  simp only []
  rw [vecSum_check (by simp), ok_bind]
  by_cases h : ∀ x ∈ vs, x.sz = v0.sz
  · have h' : ∀ x ∈ v0 :: vs, x.sz = v0.sz := by simpa using h
    have hany : (v0 :: vs).any (fun x => decide (x.sz ≠ v0.sz)) = false := by
      rw [List.any_eq_false]
      intro x hx
      simp [h' x hx]
    rw [hany, if_pos h]
    simp only [Bool.false_eq_true, if_false]
    have key : ∀ k, k ≤ vs.length + 1 → forN k (fun i d => do
        let vi ← rd (v0 :: vs) i
        forN v0.sz (fun j d => do
          let a ← rd d j
          let b ← rd vi.data j
          wr d j (a + b)) d) w.data =
        ok (((v0 :: vs).take k).foldl (fun acc x => List.zipWith (· + ·) acc x.vals)
          (w.data.take v0.sz) ++ w.data.drop v0.sz) ∧
        (((v0 :: vs).take k).foldl (fun acc x => List.zipWith (· + ·) acc x.vals)
          (w.data.take v0.sz)).length = v0.sz := by
      intro k hk
      induction k with
      | zero => simp [hw]
      | succ k ih =>
        obtain ⟨ih1, ih2⟩ := ih (by omega)
        have hk' : k < (v0 :: vs).length := by simp; omega
        have hmem : (v0 :: vs)[k] ∈ v0 :: vs := List.getElem_mem _
        have hwf := hv _ hmem
        have hsz := h' _ hmem
        rw [forN_succ, ih1, ok_bind, rd_lt hk', ok_bind, List.take_succ_eq_append_getElem hk',
          List.foldl_append]
        simp only [List.foldl_cons, List.foldl_nil]
        generalize List.foldl (fun acc x : _ => List.zipWith (· + ·) acc (Vec.vals x))
          (List.take v0.sz w.data) (List.take k (v0 :: vs)) = acc at ih2 ⊢
        generalize (v0 :: vs)[k] = x at hwf hsz ⊢
        unfold Vec.WF at hwf
        have hlen : (List.zipWith (· + ·) acc x.vals).length = v0.sz := by
          simp [Vec.vals, ih2]
          omega
        refine ⟨?_, hlen⟩
        rw [forN_write _ hlen (by simp; omega)]
        · rw [List.drop_append_of_le_length (by omega), List.drop_of_length_le (by omega),
            List.nil_append]
        · rintro j hj t rfl
          rw [rd_of (x := acc[j]), rd_lt (by omega : j < x.data.length)]
          · simp [Vec.vals]
          · rw [getElem?_take_append_drop_ge (by omega) le_rfl]
            simp [show j < acc.length by omega, List.getElem?_append_left]
    have := (key (vs.length + 1) le_rfl).1
    rw [List.take_of_length_le (by simp : (v0 :: vs).length ≤ vs.length + 1)] at this
    rw [this]
    rfl
  · rw [if_neg h]
    have hany : (v0 :: vs).any (fun x => decide (x.sz ≠ v0.sz)) = true := by
      push Not at h
      obtain ⟨x, hx, hne⟩ := h
      rw [List.any_eq_true]
      exact ⟨x, List.mem_cons_of_mem _ hx, by simpa using hne⟩
    rw [hany]
    rfl

/-- C04. No vectors: `-EINVAL`, nothing written. -/
theorem vec_sum_none (v : List (Vec R)) (w : Vec R) : vecSum v 0 w = ok (-EINVAL, w) := rfl

theorem foldl_zipWith_is {n k : Nat} (xs : Fin k → Fin n → ℝ) (vs : List (Vec XR))
    (hl : vs.length = k) (hv : ∀ i : Fin k, (vs[i]'(by omega)).Is (xs i)) (w : Fin n → ℝ) :
    vs.foldl (fun acc x => List.zipWith (· + ·) acc x.vals) ((List.ofFn w).map XR.fin) =
      (List.ofFn fun j => w j + ∑ i, xs i j).map XR.fin := by
  induction k generalizing vs w with
  | zero =>
    have : vs = [] := List.length_eq_zero_iff.1 hl
    subst this
    simp
  | succ k ih =>
    rcases vs with _ | ⟨v, vs⟩
    · simp at hl
    have hv0 : v.Is (xs 0) := hv 0
    rw [List.foldl_cons, hv0.vals]
    have hz : List.zipWith (· + ·) ((List.ofFn w).map XR.fin)
        ((List.ofFn (xs 0)).map XR.fin) = (List.ofFn fun j => w j + xs 0 j).map XR.fin := by
      apply List.ext_getElem?
      intro i
      by_cases hi : i < n <;> simp [hi]
    rw [hz, ih (fun i => xs i.succ) vs (by simpa using hl) (fun i => by simpa using hv i.succ)]
    congr 2
    funext j
    rw [Fin.sum_univ_succ]
    ring

/-- The real-vector content of a buffer that already holds a vector. -/
theorem Vec.Is.take {n : Nat} {v : Vec XR} {x : Fin n → ℝ} (h : v.Is x) :
    v.data.take n = (List.ofFn x).map XR.fin := by
  rw [← h.vals, Vec.vals, h.1]

/-- C04 (exact arithmetic): the output is `w + Σ vᵢ`. -/
theorem vec_sum_real {n k : Nat} (xs : Fin (k + 1) → Fin n → ℝ) (vs : List (Vec XR))
    (hl : vs.length = k + 1) (hv : ∀ i : Fin (k + 1), (vs[i]'(by omega)).Is (xs i)) (w : Vec XR)
    (y : Fin n → ℝ) (hw : w.Is y) :
    ∃ w', vecSum vs (k + 1) w = ok (0, w') ∧ w'.Is (fun j => y j + ∑ i, xs i j) := by
  rcases vs with _ | ⟨v0, vs⟩
  · simp at hl
  have hl' : vs.length = k := by simpa using hl
  have h0 : v0.Is (xs 0) := hv 0
  have hall : ∀ x ∈ v0 :: vs, ∃ i, x.Is (xs i) := by
    intro x hx
    obtain ⟨i, hi, rfl⟩ := List.getElem_of_mem hx
    exact ⟨⟨i, by omega⟩, hv ⟨i, by omega⟩⟩
  have hwl : v0.sz ≤ w.data.length := by
    rw [h0.1, ← hw.1]
    exact hw.wf
  have := vec_sum_accumulates v0 vs w (fun x hx => (hall x hx).choose_spec.wf) hwl
  rw [hl', if_pos] at this
  · refine ⟨_, this, ?_⟩
    rw [h0.1]
    apply Vec.is_of_append
    rw [hw.take, foldl_zipWith_is xs (v0 :: vs) hl hv]
  · intro x hx
    rw [(hall x (List.mem_cons_of_mem _ hx)).choose_spec.1, h0.1]

/-- C04 `_partial`: with an output vector that was zeroed before the call, `zsl_vec_sum` is the sum.
Missing: the same for arbitrary previous contents, which is false, see `vec_sum_not_sum`. -/
theorem vec_sum_partial {n k : Nat} (xs : Fin (k + 1) → Fin n → ℝ) (vs : List (Vec XR))
    (hl : vs.length = k + 1) (hv : ∀ i : Fin (k + 1), (vs[i]'(by omega)).Is (xs i)) (w : Vec XR)
    (hw : w.Is (0 : Fin n → ℝ)) :
    ∃ w', vecSum vs (k + 1) w = ok (0, w') ∧ w'.Is (fun j => ∑ i, xs i j) := by
  obtain ⟨w', h, h'⟩ := vec_sum_real xs vs hl hv w 0 hw
  exact ⟨w', h, by simpa using h'⟩

/-- C04, negation: there are an input and an output vector for which the result is not the sum. -/
theorem vec_sum_not_sum : ∃ (v w : Vec XR) (x : Fin 1 → ℝ), v.Is x ∧ w.WF ∧ w.sz = 1 ∧
    ∃ w', vecSum [v] 1 w = ok (0, w') ∧ ¬ w'.Is x := by
  refine ⟨_, _, ![1], Vec.is_ofFn _, (Vec.is_ofFn ![5]).wf, rfl, ?_⟩
  obtain ⟨w', h, h'⟩ := vec_sum_real (k := 0) (fun _ => ![1])
    [⟨1, (List.ofFn ![1]).map XR.fin⟩] rfl (fun i => by fin_cases i; exact Vec.is_ofFn _) _ ![5]
    (Vec.is_ofFn _)
  refine ⟨w', h, fun hbad => ?_⟩
  have h1 := h'.2 0
  rw [hbad.2 0] at h1
  norm_num at h1

/-- C04 `_partial`: the mean of a list of vectors, for a zeroed output vector. Missing: other previous contents of
the output, for which the code averages the wrong sum (`vec_sum_real`). -/
theorem vec_mean_partial {n k : Nat} (xs : Fin (k + 1) → Fin n → ℝ) (vs : List (Vec XR))
    (hl : vs.length = k + 1) (hv : ∀ i : Fin (k + 1), (vs[i]'(by omega)).Is (xs i)) (w : Vec XR)
    (hw : w.Is (0 : Fin n → ℝ)) :
    ∃ w', vecMean vs (k + 1) w = ok (0, w') ∧ w'.Is (fun j => (∑ i, xs i j) / (k + 1)) := by
  obtain ⟨w', h, h'⟩ := vec_sum_partial xs vs hl hv w hw
  have h0 : (vs[0]'(by omega)).Is (xs 0) := hv 0
  unfold vecMean
  rw [rd_lt (by omega : 0 < vs.length), ok_bind, if_neg (by rw [hw.1, h0.1]; simp), h, ok_bind]
  simp only [ne_eq, not_true_eq_false, if_false]
  rw [vec_scalar_mult_correct _ _ h'.wf]
  refine ⟨_, rfl, ?_⟩
  rw [h'.1]
  apply Vec.is_of_append
  rw [h'.vals, XR.ofNat_eq, XR.lit_eq, XR.fin_div (by positivity)]
  apply List.ext_getElem?
  intro i
  by_cases hi : i < n
  · simp [hi]
    ring
  · simp [hi]

/-- C04. The mean rejects an output of the wrong size without writing. -/
theorem vec_mean_size_mismatch (v0 : Vec R) (vs : List (Vec R)) (n : Nat) (m : Vec R)
    (h : m.sz ≠ v0.sz) : vecMean (v0 :: vs) n m = ok (-EINVAL, m) := by
  unfold vecMean
  have hrd : rd (v0 :: vs) 0 = ok v0 := rfl
  rw [hrd, ok_bind, if_pos h]
  rfl

/-- Non-vacuity for C04: two vectors and a zeroed output. -/
example : ∃ (vs : List (Vec XR)) (xs : Fin 2 → Fin 2 → ℝ) (w : Vec XR) (hl : vs.length = 2),
    (∀ i : Fin 2, (vs[i]'(by omega)).Is (xs i)) ∧ w.Is (0 : Fin 2 → ℝ) ∧ xs 1 0 = 3 :=
  ⟨[⟨2, (List.ofFn ![1, 2]).map XR.fin⟩, ⟨2, (List.ofFn ![3, 4]).map XR.fin⟩],
    ![![1, 2], ![3, 4]], ⟨2, (List.ofFn 0).map XR.fin⟩, rfl,
    fun i => by fin_cases i <;> exact Vec.is_ofFn _, Vec.is_ofFn _, rfl⟩

/-! ## C05: dot product, norm, distance -/

/-- C05. `zsl_vec_dot` is the dot product. -/
theorem vec_dot_correct {n : Nat} (v w : Vec XR) (x y : Fin n → ℝ) (d : XR) (hv : v.Is x)
    (hw : w.Is y) : vecDot v w d = ok (0, XR.fin (x ⬝ᵥ y)) := by
  unfold vecDot
  rw [if_neg (by rw [hv.1, hw.1]; simp), hv.1, XR.lit_eq,
    forN_sum (fun i => x i * y i) (fun i t => by simp [hv.rd i, hw.rd i])]
  simp [dotProduct]

/-- C05. Size mismatch: `-EINVAL`, the output is not written. -/
theorem vec_dot_mismatch (v w : Vec R) (d : R) (h : v.sz ≠ w.sz) :
    vecDot v w d = ok (-EINVAL, d) := by
  simp [vecDot, h]

/-- C05. `zsl_vec_sum_of_sqrs`. -/
theorem vec_sum_of_sqrs_correct {n : Nat} (v : Vec XR) (x : Fin n → ℝ) (hv : v.Is x) :
    vecSumOfSqrs v = ok (XR.fin (x ⬝ᵥ x)) := by
  simp [vecSumOfSqrs, vec_dot_correct v v x x _ hv hv]

theorem dotProduct_self_nonneg' {n : Nat} (x : Fin n → ℝ) : 0 ≤ x ⬝ᵥ x :=
  Finset.sum_nonneg fun i _ => mul_self_nonneg (x i)

/-- C05. `zsl_vec_norm` is the Euclidean norm. -/
theorem vec_norm_correct {n : Nat} (v : Vec XR) (x : Fin n → ℝ) (hv : v.Is x) :
    vecNorm v = ok (XR.fin (Real.sqrt (x ⬝ᵥ x))) := by
  simp [vecNorm, vec_sum_of_sqrs_correct v x hv, XR.fin_sqrt (dotProduct_self_nonneg' x)]

theorem vec_norm_eq_norm {n : Nat} (v : Vec XR) (x : Fin n → ℝ) (hv : v.Is x) :
    vecNorm v = ok (XR.fin ‖WithLp.toLp 2 x‖) := by
  rw [vec_norm_correct v x hv, EuclideanSpace.norm_eq]
  congr 3
  simp [dotProduct, sq]

/-- C05. The norm of a NULL pointer is zero. -/
theorem vec_norm_null : vecNormP (none : Option (Vec R)) = ok (lit 0) := rfl

/-- C05. `zsl_vec_dist` is the Euclidean distance. -/
theorem vec_dist_eq_dist {n : Nat} (v w : Vec XR) (x y : Fin n → ℝ) (hv : v.Is x) (hw : w.Is y) :
    vecDist v w = ok (XR.fin (dist (WithLp.toLp 2 x) (WithLp.toLp 2 y))) := by
  unfold vecDist
  rw [vec_sub_correct v w _ hv.wf hw.wf (by simp [Vec.WF]), if_pos (by rw [hv.1, hw.1]; simp)]
  simp only [ok_bind, ne_eq, not_true_eq_false, if_false]
  have hz : (⟨v.sz, List.zipWith (· - ·) v.vals w.vals ++
      List.drop v.sz (List.replicate v.sz (lit 0))⟩ : Vec XR).Is (x - y) := by
    rw [hv.1]
    apply Vec.is_of_append
    rw [hv.vals, hw.vals]
    apply List.ext_getElem?
    intro i
    by_cases hi : i < n <;> simp [hi]
  rw [vec_norm_eq_norm _ _ hz, dist_eq_norm]
  rfl

/-- C05. Distance of vectors of different size: NaN. -/
theorem vec_dist_mismatch (v w : Vec R) (h : v.sz ≠ w.sz) : vecDist v w = ok CReal.nan := by
  simp [vecDist, vecSub, h, EINVAL]

/-- C05. Laws of the dot product, as laws of the function's results. -/
theorem vec_dot_symm {n : Nat} (v w : Vec XR) (x y : Fin n → ℝ) (d : XR) (hv : v.Is x)
    (hw : w.Is y) : vecDot v w d = vecDot w v d := by
  rw [vec_dot_correct v w x y d hv hw, vec_dot_correct w v y x d hw hv, dotProduct_comm]

/-- C05. Cauchy–Schwarz for the values the functions return. -/
theorem vec_cauchy_schwarz {n : Nat} (v w : Vec XR) (x y : Fin n → ℝ) (d : XR) (hv : v.Is x)
    (hw : w.Is y) : ∃ p a b : ℝ, vecDot v w d = ok (0, XR.fin p) ∧ vecNorm v = ok (XR.fin a) ∧
      vecNorm w = ok (XR.fin b) ∧ |p| ≤ a * b := by
  refine ⟨_, _, _, vec_dot_correct v w x y d hv hw, vec_norm_correct v x hv,
    vec_norm_correct w y hw, ?_⟩
  rw [← Real.sqrt_mul (dotProduct_self_nonneg' x)]
  apply Real.abs_le_sqrt
  have := Finset.sum_mul_sq_le_sq_mul_sq Finset.univ x y
  simpa [dotProduct, sq] using this

/-- C05. The norm is non-negative and vanishes exactly for the zero vector. -/
theorem vec_norm_nonneg_zero_iff {n : Nat} (v : Vec XR) (x : Fin n → ℝ) (hv : v.Is x) :
    ∃ a : ℝ, vecNorm v = ok (XR.fin a) ∧ 0 ≤ a ∧ (a = 0 ↔ x = 0) := by
  refine ⟨_, vec_norm_eq_norm v x hv, norm_nonneg _, ?_⟩
  rw [norm_eq_zero]
  exact ⟨fun h => by simpa using h, fun h => by simpa using h⟩

/-- C05. Scaling a vector with `zsl_vec_scalar_mult` scales its norm by the absolute value. -/
theorem vec_norm_scalar_mult {n : Nat} (v : Vec XR) (x : Fin n → ℝ) (s : ℝ) (hv : v.Is x) :
    ∃ (v' : Vec XR) (a b : ℝ), vecScalarMult v (XR.fin s) = ok (0, v') ∧ vecNorm v = ok (XR.fin a) ∧
      vecNorm v' = ok (XR.fin b) ∧ b = |s| * a := by
  have hz : (⟨v.sz, v.vals.map (· * XR.fin s) ++ v.data.drop v.sz⟩ : Vec XR).Is (s • x) := by
    rw [hv.1]
    apply Vec.is_of_append
    rw [hv.vals]
    apply List.ext_getElem?
    intro i
    by_cases hi : i < n <;> simp [hi, mul_comm]
  refine ⟨_, _, _, vec_scalar_mult_correct v _ hv.wf, vec_norm_eq_norm v x hv,
    vec_norm_eq_norm _ _ hz, ?_⟩
  rw [WithLp.toLp_smul, norm_smul, Real.norm_eq_abs]

/-- C05. `zsl_vec_dist` is a metric: symmetric, zero exactly between equal vectors, triangle inequality. -/
theorem vec_dist_metric {n : Nat} (v w u : Vec XR) (x y z : Fin n → ℝ) (hv : v.Is x) (hw : w.Is y)
    (hu : u.Is z) : ∃ a b c : ℝ, vecDist v w = ok (XR.fin a) ∧ vecDist w v = ok (XR.fin a) ∧
      vecDist w u = ok (XR.fin b) ∧ vecDist v u = ok (XR.fin c) ∧ 0 ≤ a ∧ (a = 0 ↔ x = y) ∧
      c ≤ a + b := by
  refine ⟨_, _, _, vec_dist_eq_dist v w x y hv hw, ?_, vec_dist_eq_dist w u y z hw hu,
    vec_dist_eq_dist v u x z hv hu, dist_nonneg, ?_, dist_triangle _ _ _⟩
  · rw [vec_dist_eq_dist w v y x hw hv, dist_comm]
  · rw [dist_eq_zero]
    exact ⟨fun h => by simpa using h, fun h => by rw [h]⟩

/-- Non-vacuity for C05–C08, C13: real vectors exist for all values. -/
example : ∃ (v : Vec XR) (x : Fin 3 → ℝ), v.Is x ∧ x 2 = -4 :=
  ⟨_, ![1, 0, -4], Vec.is_ofFn _, rfl⟩

/-! ## C06: projection -/

theorem is_scaled {n : Nat} {v : Vec XR} {x : Fin n → ℝ} (hv : v.Is x) (s : ℝ) (d : List XR) (m : Nat)
    (hm : m = n) : (⟨m, v.vals.map (· * XR.fin s) ++ d⟩ : Vec XR).Is (s • x) := by
  subst hm
  apply Vec.is_of_append
  rw [hv.vals]
  apply List.ext_getElem?
  intro i
  by_cases hi : i < m <;> simp [hi, mul_comm]

theorem dotProduct_self_pos' {n : Nat} {x : Fin n → ℝ} (hx : x ≠ 0) : 0 < x ⬝ᵥ x := by
  rcases (dotProduct_self_nonneg' x).lt_or_eq with h | h
  · exact h
  · exact absurd (dotProduct_self_eq_zero.1 h.symm) hx

/-- C06. The projection of `v` onto `u` is the multiple `(v·u)/(u·u)` of `u`. -/
theorem vec_project_correct {n : Nat} (u v w : Vec XR) (x y : Fin n → ℝ) (hu : u.Is x) (hv : v.Is y)
    (hw : w.WF) (hwn : w.sz = n) (hx : x ≠ 0) :
    ∃ w', vecProject u v w = ok (0, w') ∧ w'.Is (((y ⬝ᵥ x) / (x ⬝ᵥ x)) • x) := by
  unfold vecProject
  unfold Vec.WF at hw
  have hc : (⟨u.sz, u.vals ++ w.data.drop u.sz⟩ : Vec XR).Is x := by
    rw [hu.1]
    exact Vec.is_of_append hu.vals
  rw [if_neg (by rw [hv.1, hu.1, hwn]; simp), vec_copy_correct w u hu.wf (by rw [hu.1]; omega)]
  simp only [ok_bind, vec_dot_correct v u y x _ hv hu, vec_dot_correct u u x x _ hu hu]
  rw [XR.fin_div (dotProduct_self_pos' hx).ne', vec_scalar_mult_correct _ _ hc.wf]
  refine ⟨_, rfl, ?_⟩
  exact is_scaled hc _ _ _ hu.1

/-- C06. What is left after projecting is orthogonal to `u`, the projection is a multiple of `u`, and projecting the
result again gives the same vector. -/
theorem vec_project_orthogonal {n : Nat} (u v w w2 : Vec XR) (x y : Fin n → ℝ) (hu : u.Is x)
    (hv : v.Is y) (hw : w.WF) (hwn : w.sz = n) (hw2 : w2.WF) (hw2n : w2.sz = n) (hx : x ≠ 0) :
    ∃ (w' w'' : Vec XR) (p : Fin n → ℝ), vecProject u v w = ok (0, w') ∧ w'.Is p ∧
      (∃ c : ℝ, p = c • x) ∧ (y - p) ⬝ᵥ x = 0 ∧
      vecProject u w' w2 = ok (0, w'') ∧ w''.Is p := by
  obtain ⟨w', h1, h2⟩ := vec_project_correct u v w x y hu hv hw hwn hx
  obtain ⟨w'', h3, h4⟩ := vec_project_correct u w' w2 x _ hu h2 hw2 hw2n hx
  have hpos := (dotProduct_self_pos' hx).ne'
  refine ⟨w', w'', _, h1, h2, ⟨_, rfl⟩, ?_, h3, ?_⟩
  · rw [sub_dotProduct, smul_dotProduct, smul_eq_mul, div_mul_cancel₀ _ hpos, sub_self]
  · have : ((((y ⬝ᵥ x) / (x ⬝ᵥ x)) • x) ⬝ᵥ x) / (x ⬝ᵥ x) = (y ⬝ᵥ x) / (x ⬝ᵥ x) := by
      rw [smul_dotProduct, smul_eq_mul, div_mul_cancel₀ _ hpos]
    rw [this] at h4
    exact h4

/-- C06. Calling `zsl_vec_project(u, v, u)` leaves in `u` the same vector as with a separate output. -/
theorem vec_project_in_place {n : Nat} (u v : Vec XR) (x y : Fin n → ℝ) (hu : u.Is x) (hv : v.Is y)
    (hx : x ≠ 0) :
    ∃ u', vecProjectOnto u v = ok (0, u') ∧ u'.Is (((y ⬝ᵥ x) / (x ⬝ᵥ x)) • x) := by
  unfold vecProjectOnto
  rw [if_neg (by rw [hv.1, hu.1]; simp)]
  simp only [ok_bind, vec_dot_correct v u y x _ hv hu, vec_dot_correct u u x x _ hu hu]
  rw [XR.fin_div (dotProduct_self_pos' hx).ne', vec_scalar_mult_correct _ _ hu.wf]
  refine ⟨_, rfl, ?_⟩
  exact is_scaled hu _ _ _ hu.1

/-- C06. Sizes that do not match: `-EINVAL`, nothing written. -/
theorem vec_project_mismatch (u v w : Vec R) (h : v.sz ≠ w.sz ∨ v.sz ≠ u.sz) :
    vecProject u v w = ok (-EINVAL, w) := by
  simp [vecProject, h]

/-! ## C07: normalisation -/

/-- C07. `zsl_vec_to_unit` yields a vector of norm 1: a positive multiple of a non-zero vector, and the first unit vector
for the zero vector. -/
theorem vec_to_unit_correct {n : Nat} (v : Vec XR) (x : Fin (n + 1) → ℝ) (hv : v.Is x) :
    ∃ (v' : Vec XR) (y : Fin (n + 1) → ℝ), vecToUnit v = ok (0, v') ∧ v'.Is y ∧
      vecNorm v' = ok (XR.fin 1) ∧ (x ≠ 0 → ∃ c : ℝ, 0 < c ∧ y = c • x) ∧
      (x = 0 → y = Pi.single 0 1) := by
  unfold vecToUnit
  rw [vec_norm_correct v x hv, ok_bind]
  by_cases hx : x = 0
  · subst hx
    have hwf := hv.wf
    unfold Vec.WF at hwf
    rw [if_neg (by simp), vec_init_correct v hv.wf, ok_bind]
    simp only
    rw [wr_lt _ (by simp [hv.1])]
    have his : (⟨v.sz, (List.replicate v.sz (lit 0) ++ List.drop v.sz v.data).set 0 (lit 1)⟩ :
        Vec XR).Is (Pi.single 0 1 : Fin (n + 1) → ℝ) := by
      refine ⟨hv.1, fun i => ?_⟩
      rw [List.getElem?_set]
      by_cases hi : i = 0
      · subst hi
        simp [hv.1]
      · have : (0 : Nat) ≠ i.val := fun h => hi (Fin.ext h.symm)
        have hlt : i.val < v.sz := by
          rw [hv.1]
          exact i.2
        rw [if_neg this, List.getElem?_append_left (by simpa using hlt)]
        simp [hlt, hi]
    refine ⟨_, _, rfl, his, ?_, fun h => absurd rfl h, fun _ => rfl⟩
    rw [vec_norm_correct _ _ his]
    simp
  · have hpos := dotProduct_self_pos' hx
    have hs := Real.sqrt_pos.2 hpos
    rw [if_pos (by simpa using hs.ne'), XR.lit_eq, XR.fin_div hs.ne',
      vec_scalar_mult_correct _ _ hv.wf]
    have his := is_scaled hv (((1 : ℚ) : ℝ) / Real.sqrt (x ⬝ᵥ x)) (v.data.drop v.sz) _ hv.1
    refine ⟨_, _, rfl, his, ?_, fun _ => ⟨_, by simpa using hs, rfl⟩, fun h => absurd h hx⟩
    rw [vec_norm_correct _ _ his, smul_dotProduct, dotProduct_smul]
    congr 2
    rw [smul_eq_mul, smul_eq_mul, ← mul_assoc]
    rw [show (((1 : ℚ) : ℝ) / Real.sqrt (x ⬝ᵥ x)) * (((1 : ℚ) : ℝ) / Real.sqrt (x ⬝ᵥ x)) * (x ⬝ᵥ x)
      = 1 by
        have h2 := Real.mul_self_sqrt hpos.le
        rw [Rat.cast_one, div_mul_div_comm, h2, one_mul, one_div, inv_mul_cancel₀ hpos.ne']]
    simp

/-! ## C08: cross product -/

/-- C08. `zsl_vec_cross` computes the cross product. -/
theorem vec_cross_correct (v w c : Vec XR) (x y : Fin 3 → ℝ) (hv : v.Is x) (hw : w.Is y) (hc : c.WF)
    (hc3 : c.sz = 3) : ∃ c', vecCross v w c = ok (0, c') ∧ c'.Is (x ⨯₃ y) ∧
      c'.data.drop 3 = c.data.drop 3 := by
  unfold vecCross
  unfold Vec.WF at hc
  rw [if_neg (by rw [hv.1, hw.1, hc3]; simp)]
  have h0 := hv.rd 0
  have h1 := hv.rd 1
  have h2 := hv.rd 2
  have k0 := hw.rd 0
  have k1 := hw.rd 1
  have k2 := hw.rd 2
  simp only [Fin.val_zero, Fin.val_one, Fin.val_two] at h0 h1 h2 k0 k1 k2
  obtain ⟨a, b, e, l, hl⟩ : ∃ a b e l, c.data = a :: b :: e :: l := by
    rcases hd : c.data with _ | ⟨a, _ | ⟨b, _ | ⟨e, l⟩⟩⟩ <;> simp_all
  simp only [h0, h1, h2, k0, k1, k2, ok_bind, hl]
  refine ⟨_, rfl, ⟨hc3, fun i => ?_⟩, rfl⟩
  rw [cross_apply]
  fin_cases i <;> simp

/-- C08. Wrong sizes: `-EINVAL`, nothing written. -/
theorem vec_cross_mismatch (v w c : Vec R) (h : v.sz ≠ 3 ∨ w.sz ≠ 3 ∨ c.sz ≠ 3) :
    vecCross v w c = ok (-EINVAL, c) := by
  simp only [vecCross, if_pos h]

/-- C08. The laws of the cross product, for the results of the function: orthogonal to both arguments,
anti-commutative, Lagrange's identity. -/
theorem vec_cross_laws (v w c d : Vec XR) (x y : Fin 3 → ℝ) (hv : v.Is x) (hw : w.Is y) (hc : c.WF)
    (hc3 : c.sz = 3) (hd : d.WF) (hd3 : d.sz = 3) :
    ∃ (c' d' : Vec XR) (z : Fin 3 → ℝ), vecCross v w c = ok (0, c') ∧ c'.Is z ∧
      vecCross w v d = ok (0, d') ∧ d'.Is (-z) ∧ z ⬝ᵥ x = 0 ∧ z ⬝ᵥ y = 0 ∧
      z ⬝ᵥ z = (x ⬝ᵥ x) * (y ⬝ᵥ y) - (x ⬝ᵥ y) ^ 2 := by
  obtain ⟨c', h1, h2, _⟩ := vec_cross_correct v w c x y hv hw hc hc3
  obtain ⟨d', h3, h4, _⟩ := vec_cross_correct w v d y x hw hv hd hd3
  refine ⟨c', d', _, h1, h2, h3, by rw [cross_anticomm]; exact h4, ?_, ?_, ?_⟩
  · rw [dotProduct_comm, dot_self_cross]
  · rw [dotProduct_comm, dot_cross_self]
  · simp only [cross_apply, dotProduct, Fin.sum_univ_three]
    simp
    ring

/-- C08. Bilinearity of the computed cross product in its first argument. -/
theorem vec_cross_bilinear (v w c : Vec XR) (x x' y : Fin 3 → ℝ) (a : ℝ) (hv : v.Is (a • x + x'))
    (hw : w.Is y) (hc : c.WF) (hc3 : c.sz = 3) :
    ∃ c', vecCross v w c = ok (0, c') ∧ c'.Is (a • (x ⨯₃ y) + x' ⨯₃ y) := by
  obtain ⟨c', h1, h2, _⟩ := vec_cross_correct v w c _ y hv hw hc hc3
  refine ⟨c', h1, ?_⟩
  simpa using h2

/-- C08, limit of the property: with the output aliasing the first input the result is not the cross product. -/
theorem vec_cross_in_place_wrong : ∃ (v w : Vec XR) (x y : Fin 3 → ℝ), v.Is x ∧ w.Is y ∧
    ∃ v', vecCrossInPlace v w = ok (0, v') ∧ ¬ v'.Is (x ⨯₃ y) := by
  refine ⟨_, _, ![1, 0, 0], ![0, 1, 0], Vec.is_ofFn _, Vec.is_ofFn _, ?_⟩
  refine ⟨_, rfl, fun h => ?_⟩
  have := h.2 2
  simp [cross_apply] at this

end Verif
