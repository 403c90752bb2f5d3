import Verif.Lemmas.Safe

/-!
# Memory safety of src/vectors.c for every content (C115)

For every scalar type, for every well-formed vector (the buffer holds at least `sz` cells) and for every content.
-/

namespace Verif

open Out

set_option linter.unusedSectionVars false

variable {R : Type} [CReal R]

/-- C115. `zsl_vec_init`. -/
theorem vec_init_safe (v : Vec R) (h : v.WF) : (vecInit v).sat fun p => v.Like p.2 := by
  unfold vecInit
  refine Out.sat.bind (P := fun d => d.length = v.data.length) ?_ ?_
  · refine forN_inv _ rfl fun i hi t ht => ?_
    have : v.sz ≤ v.data.length := h
    simp
    omega
  · intro d hd
    simp [Vec.Like, hd]

/-- C115. `zsl_vec_from_arr`: the array must hold `sz` elements. -/
theorem vec_from_arr_safe (v : Vec R) (a : List R) (h : v.WF) (ha : v.sz ≤ a.length) :
    (vecFromArr v a).sat fun p => v.Like p.2 := by
  refine Out.sat.bind (memcpyAt_safe (by simpa [Vec.WF] using h) (by simpa using ha)) ?_
  intro d hd
  simp [Vec.Like, hd]

/-- C115. `zsl_vec_copy`: the destination buffer must be able to hold the source. -/
theorem vec_copy_safe (w v : Vec R) (h : v.WF) (hw : v.sz ≤ w.data.length) :
    (vecCopy w v).sat fun p => p.2.sz = v.sz ∧ p.2.data.length = w.data.length := by
  refine Out.sat.bind (memcpyAt_safe (by simpa using hw) (by simpa [Vec.WF] using h)) ?_
  intro d hd
  simp [hd]

omit [CReal R] in
/-- C115. `zsl_vec_get_subset`, for every offset and length; `offset + len` must not wrap around (C01 says what happens then). -/
theorem vec_get_subset_safe (v w : Vec R) (offset len : ℕ) (h : v.WF) (hw : w.WF) (hs : offset + len < SIZE_MOD) :
    (vecGetSubset v offset len w).sat fun p => p.2.sz ≤ w.sz ∧ p.2.data.length = w.data.length := by
  unfold Vec.WF at h hw
  have e : szAdd offset len = offset + len := Nat.mod_eq_of_lt hs
  unfold vecGetSubset
  split
  · simp
  simp only [e]
  generalize hl : (if offset + len ≥ v.sz then v.sz - offset else len) = l
  have hl' : offset + l ≤ v.sz := by
    subst hl
    split_ifs <;> omega
  split
  · simp
  refine Out.sat.bind (memcpyAt_safe (by omega) (by omega)) ?_
  intro d hd
  simp only [pure_eq, sat_ok, hd, and_true]
  split_ifs <;> omega

/-- C115. `zsl_vec_add` and `zsl_vec_sub`, for every combination of sizes. -/
theorem vec_add_safe (v w x : Vec R) (hv : v.WF) (hw : w.WF) (hx : x.WF) : (vecAdd v w x).sat fun p => x.Like p.2 := by
  unfold Vec.WF at hv hw hx
  unfold vecAdd
  split
  · simp [Vec.Like]
  refine Out.sat.bind (P := fun d => d.length = x.data.length) ?_ ?_
  · refine forN_inv _ rfl fun i hi t ht => ?_
    simp
    omega
  · intro d hd
    simp [Vec.Like, hd]

/-- C115. -/
theorem vec_sub_safe (v w x : Vec R) (hv : v.WF) (hw : w.WF) (hx : x.WF) : (vecSub v w x).sat fun p => x.Like p.2 := by
  unfold Vec.WF at hv hw hx
  unfold vecSub
  split
  · simp [Vec.Like]
  refine Out.sat.bind (P := fun d => d.length = x.data.length) ?_ ?_
  · refine forN_inv _ rfl fun i hi t ht => ?_
    simp
    omega
  · intro d hd
    simp [Vec.Like, hd]

/-- C115. `zsl_vec_neg`. -/
theorem vec_neg_safe (v : Vec R) (h : v.WF) : (vecNeg v).sat fun p => v.Like p.2 := by
  refine Out.sat.bind (forN_cells (fun _ a => -a) h) ?_
  intro d hd
  simp [Vec.Like, hd]

/-- C115. `zsl_vec_scalar_add`, `zsl_vec_scalar_mult` and `zsl_vec_scalar_div`. -/
theorem vec_scalar_safe (v : Vec R) (s : R) (h : v.WF) :
    ((vecScalarAdd v s).sat fun p => v.Like p.2) ∧ ((vecScalarMult v s).sat fun p => v.Like p.2) ∧
      (vecScalarDiv v s).sat fun p => v.Like p.2 := by
  refine ⟨?_, ?_, ?_⟩
  · refine Out.sat.bind (forN_cells (fun _ a => a + s) h) ?_
    intro d hd
    simp [Vec.Like, hd]
  · refine Out.sat.bind (forN_cells (fun _ a => a * s) h) ?_
    intro d hd
    simp [Vec.Like, hd]
  · unfold vecScalarDiv
    split
    · simp [Vec.Like]
    refine Out.sat.bind (forN_cells (fun _ a => a / s) h) ?_
    intro d hd
    simp [Vec.Like, hd]

/-- C115. `zsl_vec_dot`, for every combination of sizes. -/
theorem vec_dot_safe (v w : Vec R) (d : R) (hv : v.WF) (hw : w.WF) : (vecDot v w d).sat fun _ => True := by
  unfold Vec.WF at hv hw
  unfold vecDot
  split
  · simp
  refine Out.sat.bind (P := fun _ => True) ?_ (by simp)
  refine forN_inv _ trivial fun i hi t _ => ?_
  simp
  omega

/-- C115. `zsl_vec_sum_of_sqrs`, `zsl_vec_norm` and `zsl_vec_dist`. -/
theorem vec_norm_safe (v : Vec R) (h : v.WF) :
    ((vecSumOfSqrs v).sat fun _ => True) ∧ (vecNorm v).sat fun _ => True := by
  have h1 : (vecSumOfSqrs v).sat fun _ => True := (vec_dot_safe v v _ h h).bind (by simp)
  exact ⟨h1, h1.bind (by simp)⟩

/-- C115. -/
theorem vec_dist_safe (v w : Vec R) (hv : v.WF) (hw : w.WF) : (vecDist v w).sat fun _ => True := by
  have hx : (⟨v.sz, List.replicate v.sz (lit 0)⟩ : Vec R).WF := by simp [Vec.WF]
  refine (vec_sub_safe v w _ hv hw hx).bind ?_
  rintro ⟨rc, x⟩ hl
  dsimp only
  split
  · simp
  · exact (vec_norm_safe x (hl.wf hx)).2

/-- C115. `zsl_vec_project`, with an output different from the inputs and in place, for every combination of sizes. -/
theorem vec_project_safe (u v w : Vec R) (hu : u.WF) (hv : v.WF) (hw : w.WF) : (vecProject u v w).sat fun p => w.Like p.2 := by
  unfold vecProject
  split
  · simp [Vec.Like]
  rename_i hs
  refine (vec_copy_safe w u hu (by unfold Vec.WF at hw; omega)).bind ?_
  rintro ⟨_, w1⟩ ⟨h1, h2⟩
  refine (vec_dot_safe v u _ hv hu).bind fun _ _ => (vec_dot_safe u u _ hu hu).bind fun _ _ => ?_
  dsimp only at h1 h2 ⊢
  have hl : w.Like w1 := ⟨by omega, h2⟩
  refine (vec_scalar_safe w1 _ (hl.wf hw)).2.1.bind ?_
  intro p hp
  simpa using hl.trans hp

/-- C115. -/
theorem vec_project_onto_safe (u v : Vec R) (hu : u.WF) (hv : v.WF) : (vecProjectOnto u v).sat fun p => u.Like p.2 := by
  unfold vecProjectOnto
  split
  · simp [Vec.Like]
  refine (vec_dot_safe v u _ hv hu).bind fun _ _ => (vec_dot_safe u u _ hu hu).bind fun _ _ => ?_
  refine (vec_scalar_safe u _ hu).2.1.bind ?_
  intro p hp
  simpa using hp

/-- C115. `zsl_vec_to_unit`, for every vector with at least one element. -/
theorem vec_to_unit_safe (v : Vec R) (h : v.WF) (hn : 0 < v.sz) : (vecToUnit v).sat fun p => v.Like p.2 := by
  refine (vec_norm_safe v h).2.bind fun n _ => ?_
  split
  · refine (vec_scalar_safe v _ h).2.1.bind ?_
    intro p hp
    simpa using hp
  · refine (vec_init_safe v h).bind ?_
    rintro ⟨_, v1⟩ hp
    unfold Vec.WF at h
    obtain ⟨h1, h2⟩ := hp
    dsimp only at h1 h2 ⊢
    simp [Vec.Like, h1, h2]
    omega

/-- C115. `zsl_vec_cross`, for every combination of sizes, also in place. -/
theorem vec_cross_safe (v w c : Vec R) (hv : v.WF) (hw : w.WF) (hc : c.WF) :
    ((vecCross v w c).sat fun p => c.Like p.2) ∧ (vecCrossInPlace v w).sat fun p => v.Like p.2 := by
  unfold Vec.WF at hv hw hc
  constructor
  · unfold vecCross
    split
    · simp [Vec.Like]
    simp [Vec.Like]
    omega
  · unfold vecCrossInPlace
    split
    · simp [Vec.Like]
    simp [Vec.Like]
    omega

/-- C115. `zsl_vec_sum`, for every number of vectors of every size; the output buffer must be able to hold the sum. -/
theorem vec_sum_safe (v : List (Vec R)) (n : ℕ) (w : Vec R) (hn : n ≤ v.length) (hv : ∀ x ∈ v, x.WF)
    (hw : ∀ x, v[0]? = some x → x.sz ≤ w.data.length) :
    (vecSum v n w).sat fun p => p.2.data.length = w.data.length := by
  unfold vecSum
  split
  · simp
  rw [rd_lt (by omega : 0 < v.length)]
  simp only [ok_bind]
  have hw0 := hw v[0] (by simp)
  refine Out.sat.bind (P := fun c => match c with
    | .next _ => ∀ i (h : i < n), v[i].sz = v[0].sz
    | .ret _ => True) ?_ ?_
  · refine (forRet_sat (fun k _ => ∀ i (h : i < n), i < k → v[i].sz = v[0].sz) (fun _ => True) (by simp) ?_).mono ?_
    · intro i hi _ ht
      simp only [sat_bind, rd_sat]
      refine ⟨by omega, ?_⟩
      split
      · simp
      · rename_i hne
        simp only [pure_eq, sat_ok]
        intro k hk hk'
        rcases Nat.lt_succ_iff_lt_or_eq.1 hk' with h | rfl
        · exact ht k hk h
        · omega
    · rintro (_ | _) h
      · exact fun i hi => h i hi hi
      · trivial
  · rintro (_ | _) h
    · dsimp only at h ⊢
      refine Out.sat.bind (P := fun d => d.length = w.data.length) ?_ (by intro d hd; simp [hd])
      refine forN_inv _ rfl fun i hi t ht => ?_
      rw [rd_lt (by omega : i < v.length), ok_bind]
      refine forN_inv _ ht fun j hj t ht => ?_
      have h2 := h i hi
      have h3 : v[i].sz ≤ v[i].data.length := hv _ (List.getElem_mem _)
      simp
      omega
    · simp

/-- C115. `zsl_vec_ar_mean`. -/
theorem vec_ar_mean_safe (v : Vec R) (m : R) (h : v.WF) : (vecArMean v m).sat fun _ => True := by
  unfold Vec.WF at h
  unfold vecArMean
  split
  · simp
  refine Out.sat.bind (P := fun _ => True) ?_ (by simp)
  refine forN_inv _ trivial fun i hi t _ => ?_
  simp
  omega

omit [CReal R] in
/-- C115. `zsl_vec_rev`, for every vector with at least one element (C09: the empty vector is undefined). -/
theorem vec_rev_safe (v : Vec R) (h : v.WF) (hn : 0 < v.sz) : (vecRev v).sat fun p => v.Like p.2 := by
  unfold Vec.WF at h
  unfold vecRev
  rw [szSub_le (by omega)]
  have key : ∀ (k : ℕ) (d : List R) (a b : ℕ), b - a ≤ k → b < d.length → (vecRevLoop d a b).sat fun d' => d'.length = d.length := by
    intro k
    induction k with
    | zero =>
      intro d a b hk hb
      unfold vecRevLoop
      rw [if_neg (by omega)]
      simp
    | succ k ih =>
      intro d a b hk hb
      unfold vecRevLoop
      split
      · rename_i hab
        rw [rd_lt (by omega), ok_bind, rd_lt hb, ok_bind, wr_lt _ (by omega), ok_bind, wr_lt _ (by simpa using hb), ok_bind]
        refine (ih _ (a + 1) (b - 1) (by omega) (by simp; omega)).mono ?_
        intro d' hd
        simpa using hd
      · simp
  refine (key _ v.data 0 (v.sz - 1) le_rfl (by omega)).bind ?_
  intro d hd
  simp [Vec.Like, hd]

/-- C115. `zsl_vec_zte`. -/
theorem vec_zte_safe (v : Vec R) (h : v.WF) : (vecZte v).sat fun p => v.Like p.2 := by
  unfold Vec.WF at h
  unfold vecZte
  refine Out.sat.bind (P := fun s => s.1.length = v.data.length) ?_ (by rintro ⟨d, x⟩ hd; simpa [Vec.Like] using hd)
  refine (forN_sat (fun i (s : List R × ℕ) => s.1.length = v.data.length ∧ s.2 ≤ i) (by simp) ?_).mono fun _ h => h.1
  rintro g hg ⟨d, x⟩ ⟨hd, hx⟩
  dsimp only at hd hx ⊢
  simp only [sat_bind, rd_sat]
  refine ⟨by omega, ?_⟩
  split
  · simp only [sat_bind]
    refine Out.sat.mono (P := fun d' => d'.length = v.data.length) ?_ ?_
    · refine forN_inv _ hd fun k hk t ht => ?_
      simp
      omega
    · intro d' hd'
      simp [hd']
      omega
  · simp [hd]
    omega

/-- C115. `zsl_vec_is_equal`, `zsl_vec_is_nonneg` and `zsl_vec_contains`, for every combination of sizes and every tolerance. -/
theorem vec_tests_safe (v w : Vec R) (x eps : R) (hv : v.WF) (hw : w.WF) :
    ((vecIsEqual v w eps).sat fun _ => True) ∧ ((vecIsNonneg v).sat fun _ => True) ∧
      (vecContains v x eps).sat fun k => k ≤ v.sz := by
  unfold Vec.WF at hv hw
  refine ⟨?_, ?_, ?_⟩
  · unfold vecIsEqual
    split
    · simp
    refine Out.sat.bind (P := fun _ => True) ?_ (by rintro (_ | _) <;> simp)
    refine (forRet_inv (fun _ => True) (fun _ => True) trivial fun i hi t _ => ?_).mono (by simp)
    simp only [sat_bind, rd_sat]
    refine ⟨by omega, by omega, ?_⟩
    split <;> simp
  · unfold vecIsNonneg
    refine Out.sat.bind (P := fun _ => True) ?_ (by rintro (_ | _) <;> simp)
    refine (forRet_inv (fun _ => True) (fun _ => True) trivial fun i hi t _ => ?_).mono (by simp)
    simp only [sat_bind, rd_sat]
    refine ⟨by omega, ?_⟩
    split <;> simp
  · unfold vecContains
    refine forN_sat (fun i k => k ≤ i) le_rfl fun i hi t ht => ?_
    simp only [sat_bind, rd_sat]
    refine ⟨by omega, ?_⟩
    simp only [pure_eq, sat_ok]
    split <;> omega

/-- Non-vacuity: the theorems apply to buffers with NaN and infinite contents and spare cells. -/
example : (vecProject ⟨2, [XR.nan, XR.pinf, XR.fin 1]⟩ ⟨2, [XR.fin 0, XR.ninf]⟩ ⟨2, [XR.nan, XR.nan, XR.nan]⟩).sat
    fun p => p.2.sz = 2 ∧ p.2.data.length = 3 :=
  vec_project_safe _ _ _ (by simp [Vec.WF]) (by simp [Vec.WF]) (by simp [Vec.WF])

end Verif
