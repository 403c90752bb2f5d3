import Verif.Props.Vectors2

/-!
# Properties of vectors: reversal, zeros to end, predicates, arithmetic mean (C09–C11, C13)
-/

set_option linter.unusedSectionVars false

namespace Verif

open Out

variable {R : Type} [CReal R]

/-! ## C09: reversal -/

theorem vecRevLoop_spec (d : List R) (s e : Nat) (he : e < d.length) :
    (vecRevLoop d s e).sat fun r => r.length = d.length ∧
      ∀ k, r[k]? = if s ≤ k ∧ k ≤ e then d[s + e - k]? else d[k]? := by
  fun_induction vecRevLoop d s e with
  | case1 d s e hlt ih =>
    rw [rd_lt (by omega : s < d.length), rd_lt he]
    simp only [ok_bind]
    rw [wr_lt _ (by omega), ok_bind, wr_lt _ (by simpa using he), ok_bind]
    refine (ih ((d.set s d[e]).set e d[s]) (by simp; omega)).mono ?_
    rintro r ⟨hl, hr⟩
    refine ⟨by simpa using hl, fun k => ?_⟩
    rw [hr k]
    simp only [List.getElem?_set, List.length_set]
    split_ifs <;> first
      | omega
      | rfl
      | (congr 1; omega)
      | (rw [List.getElem?_eq_getElem (by omega)]; congr 2; omega)
  | case2 d s e hlt =>
    rw [sat_ok]
    refine ⟨rfl, fun k => ?_⟩
    split
    · congr 1
      omega
    · rfl

/-- C09. For `sz ≥ 1`, `zsl_vec_rev` reverses exactly the first `sz` cells, for every scalar type. -/
theorem vec_rev_correct (v : Vec R) (hv : v.WF) (h1 : 1 ≤ v.sz) :
    vecRev v = ok (0, ⟨v.sz, v.vals.reverse ++ v.data.drop v.sz⟩) := by
  unfold vecRev Vec.WF at *
  have hsub : szSub v.sz 1 = v.sz - 1 := szSub_le (by omega)
  rw [hsub]
  obtain ⟨r, hr, hl, hk⟩ := vecRevLoop_spec v.data 0 (v.sz - 1) (by omega)
  rw [hr, ok_bind]
  have hlen : v.vals.length = v.sz := by
    rw [Vec.vals, List.length_take]
    omega
  have : r = v.vals.reverse ++ v.data.drop v.sz := by
    apply List.ext_getElem?
    intro k
    rw [hk k]
    by_cases h : k < v.sz
    · rw [List.getElem?_append_left (by rw [List.length_reverse, hlen]; exact h),
        List.getElem?_reverse (by rw [hlen]; exact h), hlen, Vec.vals, List.getElem?_take]
      split_ifs <;> first
        | omega
        | (congr 1; omega)
    · rw [List.getElem?_append_right (by rw [List.length_reverse, hlen]; omega),
        List.length_reverse, hlen, List.getElem?_drop]
      split_ifs <;> first
        | omega
        | (congr 1; omega)
  rw [this]
  rfl

/-- C09. Reversing twice restores the vector and its whole buffer. -/
theorem vec_rev_involutive (v : Vec R) (hv : v.WF) (h1 : 1 ≤ v.sz) :
    ∃ v', vecRev v = ok (0, v') ∧ vecRev v' = ok (0, v) := by
  refine ⟨_, vec_rev_correct v hv h1, ?_⟩
  have hlen : v.vals.reverse.length = v.sz := by
    simp [Vec.vals, Vec.WF] at *
    omega
  rw [vec_rev_correct ⟨v.sz, v.vals.reverse ++ v.data.drop v.sz⟩ (by simp only [Vec.WF, List.length_append, hlen]; omega) h1]
  congr 2
  cases v with
  | mk sz data =>
    simp only [Vec.vals, Vec.mk.injEq, true_and] at *
    rw [List.take_left' hlen, List.drop_left' hlen, List.reverse_reverse, List.take_append_drop]

/-- C09, the excluded case: on an empty vector `sz - 1` wraps around and the code leaves the buffer. -/
theorem vec_rev_empty_ub (d : List R) (hmem : d.length < SIZE_MOD) : vecRev ⟨0, d⟩ = ub := by
  unfold vecRev
  have : vecRevLoop d 0 (szSub 0 1) = ub := by
    rw [vecRevLoop, if_pos (by simp [szSub, SIZE_MOD_eq])]
    have hge : rd d (szSub 0 1) = ub := rd_ge (by
      rw [SIZE_MOD_eq] at hmem
      simp [szSub, SIZE_MOD_eq]
      omega)
    cases h : rd d 0 with
    | ub => rfl
    | ok a => rw [ok_bind, hge]; rfl
  rw [this]
  rfl

/-- Non-vacuity. -/
example (a b c d : R) : vecRev ⟨3, [a, b, c, d]⟩ = ok (0, ⟨3, [c, b, a, d]⟩) := by
  rw [vec_rev_correct _ (by simp [Vec.WF]) (by simp)]
  simp [Vec.vals]

/-! ## C10: zeros to end -/

/-- What `zsl_vec_zte` counts as zero (vectors.c:374-375). -/
def zteZero (a : R) : Bool :=
  (CReal.ge a (lit 0) && CReal.lt a (lit 1e-6)) || (CReal.le a (lit 0) && CReal.gt a (lit 1e-6))

theorem shift_spec (d : List R) (p m : Nat) (hpm : p + m < d.length) :
    (forN m (fun k d => do
      let b ← rd d (p + k + 1)
      wr d (p + k) b) d).sat fun r : List R => r.length = d.length ∧
        ∀ k, r[k]? = if p ≤ k ∧ k < p + m then d[k + 1]? else d[k]? := by
  refine forN_sat (fun i (r : List R) => r.length = d.length ∧
    ∀ k, r[k]? = if p ≤ k ∧ k < p + i then d[k + 1]? else d[k]?) ?_ ?_
  · refine ⟨rfl, fun k => ?_⟩
    rw [if_neg (by omega)]
  · rintro i hi t ⟨hl, ht⟩
    rw [rd_of (x := d[p + i + 1]'(by omega))]
    · rw [ok_bind, wr_lt _ (by omega), sat_ok]
      refine ⟨by simpa using hl, fun k => ?_⟩
      rw [List.getElem?_set]
      by_cases h : p + i = k
      · subst h
        rw [if_pos rfl, if_pos (by omega), if_pos (by omega)]
        simp
      · rw [if_neg h, ht k]
        by_cases h2 : p ≤ k ∧ k < p + i
        · rw [if_pos h2, if_pos (by omega)]
        · rw [if_neg h2, if_neg (by omega)]
    · rw [ht, if_neg (by omega)]
      simp

theorem shift_list (A B C : List R) (a z : R) (sz : Nat) (hsz : A.length + 1 + B.length = sz) :
    (forN (sz - 1 - A.length) (fun k d => do
      let b ← rd d (A.length + k + 1)
      wr d (A.length + k) b) (A ++ a :: B ++ C) >>= fun d => wr d (sz - 1) z) =
    ok (A ++ B ++ z :: C) := by
  obtain ⟨r, hr, hl, hk⟩ := shift_spec (A ++ a :: B ++ C) A.length (sz - 1 - A.length)
    (by simp; omega)
  rw [hr, ok_bind, wr_lt _ (by rw [hl]; simp; omega)]
  congr 1
  apply List.ext_getElem?
  intro k
  rw [List.getElem?_set]
  simp only [List.append_assoc, List.cons_append, List.getElem?_append, List.getElem?_cons, hk k,
    hl, List.length_append, List.length_cons]
  split_ifs <;> first
    | omega
    | rfl
    | (congr 1; omega)

/-- C10. `zsl_vec_zte` keeps the non-zero elements in order, moves the zeros to the end (as exact zeros), keeps the size
and leaves the rest of the buffer alone; for every scalar type. -/
theorem vec_zte_correct (v : Vec R) (hv : v.WF) :
    vecZte v = ok (0, ⟨v.sz, v.vals.filter (fun a => !zteZero a) ++
      List.replicate (v.vals.countP zteZero) (lit 0) ++ v.data.drop v.sz⟩) := by
  unfold vecZte
  have hlen : v.vals.length = v.sz := by
    simp [Vec.vals, Vec.WF] at *
    omega
  have hsplit : v.data = v.vals ++ v.data.drop v.sz := by simp [Vec.vals]
  rw [forN_eq (fun g => ((v.vals.take g).filter (fun a => !zteZero a) ++ v.vals.drop g ++
    (List.replicate ((v.vals.take g).countP zteZero) (lit 0) ++ v.data.drop v.sz),
    (v.vals.take g).countP zteZero))]
  · rw [← hlen, List.take_length, List.drop_length, hlen]
    simp [List.append_assoc]
  · simp [Vec.vals]
  · intro g hg
    have hg' : g < v.vals.length := by omega
    have hcount : ((v.vals.take g).filter (fun a => !zteZero a)).length +
        (v.vals.take g).countP zteZero = g := by
      have h1 := List.length_eq_countP_add_countP zteZero (l := v.vals.take g)
      rw [← List.countP_eq_length_filter]
      have h2 : (v.vals.take g).length = g := by simp; omega
      have h3 : List.countP (fun a => decide ¬zteZero a = true) (v.vals.take g) =
          List.countP (fun a => !zteZero a) (v.vals.take g) := by
        congr 1
        funext a
        cases zteZero a <;> rfl
      omega
    have htake : v.vals.take (g + 1) = v.vals.take g ++ [v.vals[g]] :=
      List.take_succ_eq_append_getElem hg'
    have hdrop : v.vals.drop g = v.vals[g] :: v.vals.drop (g + 1) :=
      List.drop_eq_getElem_cons hg'
    rw [htake, List.filter_append, List.countP_append]
    generalize hA : (v.vals.take g).filter (fun a => !zteZero a) = A at hcount ⊢
    generalize (v.vals.take g).countP zteZero = x at hcount ⊢
    have hgx : g - x = A.length := by omega
    simp only []
    rw [hgx]
    have hread : rd (A ++ v.vals.drop g ++ (List.replicate x (lit 0) ++ v.data.drop v.sz))
        A.length = ok v.vals[g] := by
      apply rd_of
      rw [List.append_assoc, List.getElem?_append_right le_rfl, Nat.sub_self, hdrop]
      rfl
    rw [hread, ok_bind]
    have hz : ((CReal.ge v.vals[g] (lit 0) && CReal.lt v.vals[g] (lit 1e-6)) ||
        (CReal.le v.vals[g] (lit 0) && CReal.gt v.vals[g] (lit 1e-6))) = zteZero v.vals[g] := rfl
    rw [hz]
    cases hzz : zteZero v.vals[g] with
    | true =>
      rw [if_pos rfl, hdrop]
      have hlist : A ++ v.vals[g] :: v.vals.drop (g + 1) ++
          (List.replicate x (lit 0) ++ v.data.drop v.sz) =
          A ++ v.vals[g] :: (v.vals.drop (g + 1) ++ List.replicate x (lit 0)) ++
            v.data.drop v.sz := by
        simp only [List.append_assoc, List.cons_append]
      rw [hlist, ← Out.bind_assoc' (forN _ _ _), shift_list _ _ _ _ _ _ (by
        rw [List.length_append, List.length_drop, List.length_replicate]
        omega)]
      simp [hzz, List.replicate_succ']
    | false =>
      rw [if_neg (by simp), hdrop, List.filter_cons_of_pos (by simp [hzz])]
      simp only [hzz, List.append_assoc, List.cons_append, List.filter_nil, List.countP_cons,
        List.countP_nil, List.nil_append]
      rfl

/-- C10. In exact arithmetic, what counts as zero is the range `0 ≤ a < 10⁻⁶`. -/
theorem zteZero_real (a : ℝ) : zteZero (XR.fin a) = true ↔ 0 ≤ a ∧ a < 1e-6 := by
  simp only [zteZero, XR.lit_eq, Bool.or_eq_true, Bool.and_eq_true, XR.fin_ge, XR.fin_lt, XR.fin_le,
    XR.fin_gt]
  norm_num
  intro h1 h2
  linarith

/-- Non-vacuity: zeros in the middle, a buffer larger than the vector. -/
example : vecZte (⟨3, [XR.fin 0, XR.fin 2, XR.fin 0, XR.fin 7]⟩ : Vec XR) =
    ok (0, ⟨3, [XR.fin 2, XR.fin 0, XR.fin 0, XR.fin 7]⟩) := by
  rw [vec_zte_correct _ (by simp [Vec.WF])]
  have h0 : zteZero (XR.fin 0) = true := by rw [zteZero_real]; norm_num
  have h2 : zteZero (XR.fin 2) = false := by
    rw [← Bool.not_eq_true, zteZero_real]
    norm_num
  simp [Vec.vals, h0, h2, List.replicate]

/-! ## C11: predicates -/

theorem any_range_getElem {α : Type} (l : List α) (p : α → Bool) :
    (List.range l.length).any (fun i => (l[i]?.map p).getD false) = l.any p := by
  rw [Bool.eq_iff_iff, List.any_eq_true, List.any_eq_true]
  constructor
  · rintro ⟨i, hi, hp⟩
    have hi' : i < l.length := by simpa using hi
    exact ⟨l[i], List.getElem_mem _, by simpa [hi'] using hp⟩
  · rintro ⟨x, hx, hp⟩
    obtain ⟨i, hi, rfl⟩ := List.getElem_of_mem hx
    exact ⟨i, by simpa using hi, by simpa [hi] using hp⟩

/-- C11. `zsl_vec_is_nonneg` finds a negative element if there is one (every scalar type). -/
theorem vec_is_nonneg_correct (v : Vec R) (hv : v.WF) :
    vecIsNonneg v = ok (!v.vals.any fun a => CReal.lt a (lit 0)) := by
  unfold vecIsNonneg Vec.WF at *
  have hlen : v.vals.length = v.sz := by
    rw [Vec.vals, List.length_take]
    omega
  rw [forRet_unit (fun i => (v.vals[i]?.map fun a => CReal.lt a (lit 0)).getD false) false]
  · rw [← hlen, any_range_getElem]
    cases h : v.vals.any fun a => CReal.lt a (lit 0) <;> rfl
  · intro i hi
    rw [rd_lt (by omega : i < v.data.length)]
    have : v.vals[i]? = some (v.data[i]'(by omega)) := by
      simp [Vec.vals, hi, show i < v.data.length by omega]
    rw [this]
    simp only [ok_bind, Option.map_some, Option.getD_some]
    split <;> rfl

/-- C11. In exact arithmetic: true exactly when no element is negative. -/
theorem vec_is_nonneg_iff {n : Nat} (v : Vec XR) (x : Fin n → ℝ) (hv : v.Is x) :
    ∃ b, vecIsNonneg v = ok b ∧ (b = true ↔ ∀ i, 0 ≤ x i) := by
  refine ⟨_, vec_is_nonneg_correct v hv.wf, ?_⟩
  rw [hv.vals]
  simp

/-- C11. `zsl_vec_is_equal` for every scalar type. -/
theorem vec_is_equal_correct (v w : Vec R) (eps : R) (hv : v.WF) (hw : w.WF) :
    vecIsEqual v w eps = ok (decide (v.sz = w.sz) && !(List.zipWith (fun a b =>
      CReal.ge (a - b) eps || CReal.ge (-(a - b)) eps) v.vals w.vals).any id) := by
  unfold vecIsEqual Vec.WF at *
  by_cases h : v.sz = w.sz
  · rw [if_neg (by simpa using h)]
    set l := List.zipWith (fun a b => CReal.ge (a - b) eps || CReal.ge (-(a - b)) eps) v.vals w.vals
      with hl
    have hlen : l.length = v.sz := by
      simp [hl, Vec.vals]
      omega
    rw [forRet_unit (fun i => (l[i]?.map id).getD false) false]
    · rw [← hlen, any_range_getElem]
      rw [hlen, decide_eq_true h, Bool.true_and]
      cases l.any id <;> rfl
    · intro i hi
      rw [rd_lt (by omega : i < v.data.length), rd_lt (by omega : i < w.data.length)]
      have : l[i]? = some (CReal.ge (v.data[i]'(by omega) - w.data[i]'(by omega)) eps ||
          CReal.ge (-(v.data[i]'(by omega) - w.data[i]'(by omega))) eps) := by
        simp [hl, Vec.vals, hi, show i < v.data.length by omega,
          show i < w.sz by omega, show i < w.data.length by omega]
      rw [this]
      simp only [ok_bind, Option.map_some, Option.getD_some, id_eq]
      split <;> rfl
  · rw [if_pos h]
    simp [h]

/-- C11. In exact arithmetic: true exactly when every difference is smaller than `eps`; never for different sizes. -/
theorem vec_is_equal_iff {n m : Nat} (v w : Vec XR) (x : Fin n → ℝ) (y : Fin m → ℝ) (eps : ℝ)
    (hv : v.Is x) (hw : w.Is y) :
    ∃ b, vecIsEqual v w (XR.fin eps) = ok b ∧
      (b = true ↔ ∃ h : n = m, ∀ i : Fin n, |x i - y (i.cast h)| < eps) := by
  refine ⟨_, vec_is_equal_correct v w _ hv.wf hw.wf, ?_⟩
  rw [hv.vals, hw.vals, hv.1, hw.1, Bool.and_eq_true, decide_eq_true_eq]
  constructor
  · rintro ⟨rfl, h⟩
    refine ⟨rfl, fun i => ?_⟩
    simp only [Bool.not_eq_true', List.any_eq_false, id_eq] at h
    have := h (CReal.ge (XR.fin (x i) - XR.fin (y i)) (XR.fin eps) ||
      CReal.ge (-(XR.fin (x i) - XR.fin (y i))) (XR.fin eps)) (by
        rw [List.mem_iff_getElem?]
        exact ⟨i, by simp⟩)
    simp only [XR.fin_sub, XR.fin_neg, Bool.not_eq_true, Bool.or_eq_false_iff, XR.fin_ge_false] at this
    rw [abs_lt]
    simp only [Fin.cast_eq_self]
    constructor <;> linarith
  · rintro ⟨rfl, h⟩
    refine ⟨rfl, ?_⟩
    simp only [Bool.not_eq_true', List.any_eq_false, id_eq]
    intro b hb
    rw [List.mem_iff_getElem?] at hb
    obtain ⟨i, hi⟩ := hb
    have hin : i < n := by
      by_contra hc
      simp [hc] at hi
    have := h ⟨i, hin⟩
    rw [abs_lt] at this
    simp only [Fin.cast_eq_self] at this
    simp [hin] at hi
    rw [← hi]
    simp only [Bool.not_eq_true, Bool.or_eq_false_iff, XR.fin_ge_false]
    constructor <;> linarith

/-- C11. `zsl_vec_contains` counts, for every scalar type. -/
theorem vec_contains_correct (v : Vec R) (val eps : R) (hv : v.WF) :
    vecContains v val eps =
      ok (v.vals.countP fun a => CReal.lt (a - val) eps && CReal.lt (-(a - val)) eps) := by
  unfold vecContains Vec.WF at *
  have hlen : v.vals.length = v.sz := by
    rw [Vec.vals, List.length_take]
    omega
  rw [forN_eq (fun i => (v.vals.take i).countP
    fun a => CReal.lt (a - val) eps && CReal.lt (-(a - val)) eps)]
  · rw [← hlen, List.take_length]
  · rfl
  · intro i hi
    rw [rd_lt (by omega : i < v.data.length), List.take_succ_eq_append_getElem (by omega),
      List.countP_append]
    have : v.vals[i]'(by omega) = v.data[i]'(by omega) := by simp [Vec.vals]
    rw [this]
    simp only [ok_bind, List.countP_cons, List.countP_nil, pure_eq]
    split <;> rfl

/-- C11. In exact arithmetic `zsl_vec_contains` is the number of positions within `eps` of `val`. -/
theorem vec_contains_card {n : Nat} (v : Vec XR) (x : Fin n → ℝ) (val eps : ℝ) (hv : v.Is x) :
    vecContains v (XR.fin val) (XR.fin eps) =
      ok (Finset.card {i : Fin n | |x i - val| < eps}) := by
  classical
  rw [vec_contains_correct v _ _ hv.wf, hv.vals, List.countP_map]
  congr 1
  have hp : ((fun a => CReal.lt (a - XR.fin val) (XR.fin eps) &&
      CReal.lt (-(a - XR.fin val)) (XR.fin eps)) ∘ XR.fin) = fun a : ℝ => decide (|a - val| < eps) := by
    funext a
    rw [Bool.eq_iff_iff]
    simp only [Function.comp, XR.fin_sub, XR.fin_neg, Bool.and_eq_true, XR.fin_lt,
      decide_eq_true_eq, abs_lt]
    constructor <;> intro h <;> constructor <;> linarith [h.1, h.2]
  rw [hp]
  clear hp hv
  induction n with
  | zero => simp
  | succ n ih =>
    rw [List.ofFn_succ, List.countP_cons, ih, Fin.card_filter_univ_succ]
    simp only [decide_eq_true_eq]
    split <;> simp [add_comm]

/-! ## C13: arithmetic mean -/

/-- C13. `zsl_vec_ar_mean` is the sum divided by the number of elements. -/
theorem vec_ar_mean_correct {n : Nat} (v : Vec XR) (x : Fin (n + 1) → ℝ) (m : XR) (hv : v.Is x) :
    vecArMean v m = ok (0, XR.fin ((∑ i, x i) / (n + 1))) := by
  unfold vecArMean
  rw [if_neg (by rw [hv.1]; omega), hv.1, XR.lit_eq,
    forN_sum x (fun i t => by simp [hv.rd i])]
  rw [ok_bind, XR.ofNat_eq, XR.fin_div (by positivity)]
  simp

/-- C13. Empty vector: `-EINVAL`, output not written. -/
theorem vec_ar_mean_empty (v : Vec R) (m : R) (h : v.sz = 0) : vecArMean v m = ok (-EINVAL, m) := by
  simp [vecArMean, h]

/-- C13. The mean lies between any lower and upper bound of the elements; in particular between the smallest and the largest. -/
theorem vec_ar_mean_between {n : Nat} (v : Vec XR) (x : Fin (n + 1) → ℝ) (m : XR) (hv : v.Is x)
    (lo hi : ℝ) (hlo : ∀ i, lo ≤ x i) (hhi : ∀ i, x i ≤ hi) :
    ∃ a : ℝ, vecArMean v m = ok (0, XR.fin a) ∧ lo ≤ a ∧ a ≤ hi := by
  refine ⟨_, vec_ar_mean_correct v x m hv, ?_, ?_⟩
  · rw [le_div_iff₀ (by positivity)]
    have := Finset.sum_le_sum fun i (_ : i ∈ Finset.univ) => hlo i
    simp at this
    linarith
  · rw [div_le_iff₀ (by positivity)]
    have := Finset.sum_le_sum fun i (_ : i ∈ Finset.univ) => hhi i
    simp at this
    linarith

/-- C13. Scaling and shifting the data (`zsl_vec_scalar_mult`, `zsl_vec_scalar_add`) scales and shifts the mean. -/
theorem vec_ar_mean_affine {n : Nat} (v : Vec XR) (x : Fin (n + 1) → ℝ) (m : XR) (s t : ℝ)
    (hv : v.Is x) :
    ∃ (v1 v2 : Vec XR) (a : ℝ), vecScalarMult v (XR.fin s) = ok (0, v1) ∧
      vecScalarAdd v1 (XR.fin t) = ok (0, v2) ∧ vecArMean v m = ok (0, XR.fin a) ∧
      vecArMean v2 m = ok (0, XR.fin (s * a + t)) := by
  have h1 := is_scaled hv s (v.data.drop v.sz) v.sz hv.1
  have h2 : (⟨v.sz, (⟨v.sz, v.vals.map (· * XR.fin s) ++ v.data.drop v.sz⟩ : Vec XR).vals.map
      (· + XR.fin t) ++ (v.vals.map (· * XR.fin s) ++ v.data.drop v.sz).drop v.sz⟩ : Vec XR).Is
      (fun i => s * x i + t) := by
    rw [h1.vals, hv.1]
    apply Vec.is_of_append
    apply List.ext_getElem?
    intro i
    by_cases hi : i < n + 1 <;> simp [hi, -List.ofFn_succ]
  refine ⟨_, _, _, vec_scalar_mult_correct v _ hv.wf, vec_scalar_add_correct _ _ h1.wf,
    vec_ar_mean_correct v x m hv, ?_⟩
  rw [vec_ar_mean_correct _ _ m h2]
  congr 3
  rw [Finset.sum_add_distrib, ← Finset.mul_sum]
  simp
  field_simp

/-- Non-vacuity for C11/C13. -/
example : ∃ (v : Vec XR) (x : Fin 2 → ℝ), v.Is x ∧ (∀ i, -1 ≤ x i) ∧ (∀ i, x i ≤ 5) ∧
    ¬ ∀ i, 0 ≤ x i := by
  refine ⟨_, ![-1, 5], Vec.is_ofFn _, ?_, ?_, fun h => ?_⟩
  · intro i
    fin_cases i <;> norm_num
  · intro i
    fin_cases i <;> norm_num
  · have := h 0
    norm_num at this

end Verif
