import Verif.Lemmas.Vectors

/-!
# Properties of vectors: data movement and element-wise arithmetic (C01, C02)

All theorems of this file hold for every scalar type.
-/

set_option linter.unusedSectionVars false

namespace Verif

open Out

variable {R : Type} [CReal R]

/-! ## C02: exact element-wise results -/

/-- C02. `zsl_vec_init` zeroes exactly the first `sz` cells. -/
theorem vec_init_correct (v : Vec R) (hv : v.WF) :
    vecInit v = ok (0, ⟨v.sz, List.replicate v.sz (lit 0) ++ v.data.drop v.sz⟩) := by
  unfold vecInit
  rw [forN_write (List.replicate v.sz (lit 0)) (by simp) hv]
  · rfl
  · intro i hi t _
    simp

/-- C02. `zsl_vec_from_arr` copies exactly the first `sz` elements of the array. -/
theorem vec_from_arr_correct (v : Vec R) (a : List R) (hv : v.WF) (ha : v.sz ≤ a.length) :
    vecFromArr v a = ok (0, ⟨v.sz, a.take v.sz ++ v.data.drop v.sz⟩) := by
  unfold vecFromArr
  rw [memcpyAt_eq hv (by omega)]
  simp

/-- C02. `zsl_vec_copy` makes the destination the same vector, if its buffer is large enough. -/
theorem vec_copy_correct (dst src : Vec R) (hs : src.WF) (hd : src.sz ≤ dst.data.length) :
    vecCopy dst src = ok (0, ⟨src.sz, src.vals ++ dst.data.drop src.sz⟩) := by
  unfold vecCopy
  rw [memcpyAt_eq hd (by simpa [Vec.WF] using hs)]
  simp [Vec.vals]

/-- C02. A destination buffer smaller than the source is overrun. -/
theorem vec_copy_overrun (dst src : Vec R) (hd : dst.data.length < src.sz) :
    vecCopy dst src = ub := by
  unfold vecCopy memcpyAt
  have key : ∀ n, ∀ d : List R, (forN n (fun i d => do
      let x ← rd src.data (0 + i)
      wr d (0 + i) x) d = ub) ∨ ∃ e, forN n (fun i d => do
      let x ← rd src.data (0 + i)
      wr d (0 + i) x) d = ok e ∧ e.length = d.length ∧ n ≤ d.length := by
    intro n d
    induction n with
    | zero => exact Or.inr ⟨d, rfl, rfl, by omega⟩
    | succ n ih =>
      rw [forN_succ]
      rcases ih with h | ⟨e, h, hl, hn⟩
      · exact Or.inl (by rw [h]; rfl)
      · rw [h, ok_bind]
        by_cases h1 : 0 + n < src.data.length
        · rw [rd_lt h1, ok_bind]
          by_cases h2 : 0 + n < e.length
          · rw [wr_lt _ h2]
            exact Or.inr ⟨_, rfl, by simpa using hl, by omega⟩
          · rw [wr_ge _ (by omega)]
            exact Or.inl rfl
        · rw [rd_ge (by omega)]
          exact Or.inl rfl
  rcases key src.sz dst.data with h | ⟨e, _, _, hn⟩
  · rw [h]; rfl
  · omega

theorem zipWith_fill (v w x : Vec R) (f : R → R → R) (hv : v.WF) (hw : w.WF) (hx : x.WF)
    (h1 : v.sz = w.sz) (h2 : v.sz = x.sz) :
    forN v.sz (fun i d => do
      let a ← rd v.data i
      let b ← rd w.data i
      wr d i (f a b)) x.data = ok (List.zipWith f v.vals w.vals ++ x.data.drop v.sz) := by
  unfold Vec.WF at *
  refine forN_write _ (by simp [Vec.vals]; omega) (by omega) ?_
  intro i hi t _
  rw [rd_lt (by omega : i < v.data.length), rd_lt (by omega : i < w.data.length)]
  simp [Vec.vals]

/-- C02. `zsl_vec_add`: equal sizes give the element-wise sum in the first `sz` cells and nothing else
changes; otherwise `-EINVAL` and nothing is written. -/
theorem vec_add_correct (v w x : Vec R) (hv : v.WF) (hw : w.WF) (hx : x.WF) :
    vecAdd v w x =
      if v.sz = w.sz ∧ v.sz = x.sz then
        ok (0, ⟨x.sz, List.zipWith (· + ·) v.vals w.vals ++ x.data.drop x.sz⟩)
      else ok (-EINVAL, x) := by
  unfold vecAdd
  by_cases h : v.sz = w.sz ∧ v.sz = x.sz
  · rw [if_neg (by omega), if_pos h, zipWith_fill v w x (· + ·) hv hw hx h.1 h.2, h.2]
    rfl
  · rw [if_pos (by omega), if_neg h]

/-- C02. `zsl_vec_sub`. -/
theorem vec_sub_correct (v w x : Vec R) (hv : v.WF) (hw : w.WF) (hx : x.WF) :
    vecSub v w x =
      if v.sz = w.sz ∧ v.sz = x.sz then
        ok (0, ⟨x.sz, List.zipWith (· - ·) v.vals w.vals ++ x.data.drop x.sz⟩)
      else ok (-EINVAL, x) := by
  unfold vecSub
  by_cases h : v.sz = w.sz ∧ v.sz = x.sz
  · rw [if_neg (by omega), if_pos h, zipWith_fill v w x (· - ·) hv hw hx h.1 h.2, h.2]
    rfl
  · rw [if_pos (by omega), if_neg h]

/-- C02. `zsl_vec_neg`. -/
theorem vec_neg_correct (v : Vec R) (hv : v.WF) :
    vecNeg v = ok (0, ⟨v.sz, v.vals.map (- ·) ++ v.data.drop v.sz⟩) := by
  unfold vecNeg
  rw [forN_map (fun a => -a) hv]
  rfl

/-- C02. `zsl_vec_scalar_add`. -/
theorem vec_scalar_add_correct (v : Vec R) (s : R) (hv : v.WF) :
    vecScalarAdd v s = ok (0, ⟨v.sz, v.vals.map (· + s) ++ v.data.drop v.sz⟩) := by
  unfold vecScalarAdd
  rw [forN_map (fun a => a + s) hv]
  rfl

/-- C02. `zsl_vec_scalar_mult`. -/
theorem vec_scalar_mult_correct (v : Vec R) (s : R) (hv : v.WF) :
    vecScalarMult v s = ok (0, ⟨v.sz, v.vals.map (· * s) ++ v.data.drop v.sz⟩) := by
  unfold vecScalarMult
  rw [forN_map (fun a => a * s) hv]
  rfl

/-- C02. `zsl_vec_scalar_div`: division by zero is refused and changes nothing. -/
theorem vec_scalar_div_correct (v : Vec R) (s : R) (hv : v.WF) :
    vecScalarDiv v s =
      if CReal.eq s (lit 0) then ok (-EINVAL, v)
      else ok (0, ⟨v.sz, v.vals.map (· / s) ++ v.data.drop v.sz⟩) := by
  unfold vecScalarDiv
  rw [forN_map (fun a => a / s) hv]
  rfl

/-- C02. Adding a vector and subtracting it again gives the original vector back (exact arithmetic). -/
theorem vec_add_sub_cancel {n : Nat} (v w x y : Vec XR) (a b : Fin n → ℝ) (hv : v.Is a)
    (hw : w.Is b) (hx : x.WF) (hy : y.WF) (hxn : x.sz = n) (hyn : y.sz = n) :
    ∃ x' y', vecAdd v w x = ok (0, x') ∧ vecSub x' w y = ok (0, y') ∧ y'.vals = v.vals := by
  have hwf : (⟨x.sz, List.zipWith (· + ·) v.vals w.vals ++ x.data.drop x.sz⟩ : Vec XR).WF := by
    simp [Vec.WF, Vec.vals] at *
    have h1 := hv.wf
    have h2 := hw.wf
    simp only [Vec.WF, hv.1, hw.1] at h1 h2
    simp only [hv.1, hw.1]
    omega
  refine ⟨_, _, by rw [vec_add_correct v w x hv.wf hw.wf hx,
    if_pos (by rw [hv.1, hw.1, hxn]; simp)], by
      rw [vec_sub_correct _ w y hwf hw.wf hy, if_pos (by simp only [hxn, hw.1, hyn]; simp)], ?_⟩
  rw [hv.vals, hw.vals]
  apply List.ext_getElem?
  intro i
  by_cases hi : i < n
  · simp [Vec.vals, hxn, hyn, hi]
  · simp [Vec.vals, hyn, hi]

/-- Non-vacuity of `vec_add_sub_cancel`. -/
example : ∃ (v w x y : Vec XR) (a b : Fin 2 → ℝ), v.Is a ∧ w.Is b ∧ x.WF ∧ y.WF ∧ x.sz = 2 ∧
    y.sz = 2 ∧ a 0 = 3 ∧ b 1 = -7 :=
  ⟨_, _, ⟨2, [XR.nan, XR.nan]⟩, ⟨2, [XR.nan, XR.nan]⟩, ![3, 4], ![1, -7], Vec.is_ofFn _,
    Vec.is_ofFn _, by simp [Vec.WF], by simp [Vec.WF], rfl, rfl, rfl, rfl⟩

/-- The specifications above are used on non-trivial vectors: buffers larger than `sz`, all hypotheses met. -/
example (a b c d : R) : vecAdd ⟨2, [a, b, c]⟩ ⟨2, [c, d]⟩ ⟨2, [d, d, a]⟩
    = ok (0, ⟨2, [a + c, b + d, a]⟩) := by
  rw [vec_add_correct _ _ _ (by simp [Vec.WF]) (by simp [Vec.WF]) (by simp [Vec.WF])]
  simp [Vec.vals]

/-! ## C01: subsets -/

/-- C01. `zsl_vec_get_subset`, complete description. The two buffers together are smaller than the address space.
* Offset outside the vector, window larger than `vsub`, or `offset + len` wrapping around: `-EINVAL`, nothing written.
* Otherwise `vsub` has `min len (sz - offset)` elements, exactly those from `offset` on, and the rest of its
  buffer is untouched. -/
theorem vec_get_subset_correct (v vsub : Vec R) (offset len : Nat) (hv : v.WF) (hs : vsub.WF)
    (hmem : v.data.length + vsub.data.length < SIZE_MOD) (hlen : len < SIZE_MOD) :
    vecGetSubset v offset len vsub =
      if offset ≥ v.sz ∨ vsub.sz < min len (v.sz - offset) ∨ SIZE_MOD ≤ offset + len then
        ok (-EINVAL, vsub)
      else
        ok (0, ⟨min len (v.sz - offset), (v.data.drop offset).take (min len (v.sz - offset)) ++
          vsub.data.drop (min len (v.sz - offset))⟩) := by
  unfold vecGetSubset Vec.WF szAdd at *
  by_cases h0 : offset ≥ v.sz
  · simp [h0]
  rw [if_neg h0]
  by_cases hw : SIZE_MOD ≤ offset + len
  · have h1 : (offset + len) % SIZE_MOD = offset + len - SIZE_MOD := by
      rw [Nat.mod_eq_sub_mod hw, Nat.mod_eq_of_lt (by omega)]
    simp only [h1]
    rw [if_neg (by omega : ¬ offset + len - SIZE_MOD ≥ v.sz), if_pos (by omega),
      if_pos (by omega)]
  · rw [Nat.mod_eq_of_lt (by omega)]
    have hl : (if offset + len ≥ v.sz then v.sz - offset else len) = min len (v.sz - offset) := by
      split <;> omega
    simp only [hl]
    by_cases h2 : vsub.sz < min len (v.sz - offset)
    · simp [h2]
    · have h3 : (if vsub.sz > min len (v.sz - offset) then min len (v.sz - offset) else vsub.sz)
          = min len (v.sz - offset) := by
        split <;> omega
      simp only [h3]
      rw [if_neg h2, if_neg (by omega), memcpyAt_eq (by omega) (by omega)]
      rfl

/-- Non-vacuity: a window that is cut off at the end of the vector. -/
example (a b c : R) : vecGetSubset ⟨3, [a, b, c]⟩ 1 7 ⟨3, [a, a, a]⟩ = ok (0, ⟨2, [b, c, a]⟩) := by
  rw [vec_get_subset_correct _ _ _ _ (by simp [Vec.WF]) (by simp [Vec.WF]) (by simp [SIZE_MOD_eq])
    (by simp [SIZE_MOD_eq])]
  simp [SIZE_MOD_eq]

end Verif
