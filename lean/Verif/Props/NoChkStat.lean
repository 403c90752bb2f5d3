import Verif.Props.NoChk2
import Verif.Model.NoChkStat

/-!
# Builds without bounds checks: statistics
-/

set_option linter.unusedSectionVars false

namespace Verif

open NoChkL Out

variable {R : Type} [CReal R]

/-! ### Location -/

theorem percentile_eq {fuel : Nat} {extra : List R} {junk : Nat → R} {v : Vec R} {p val : R}
    (h : ¬ (CReal.gt p (lit 100) || CReal.lt p (lit 0)) = true) :
    NoChk.staPercentile fuel extra junk v p val = staPercentile fuel extra junk v p val := by
  unfold NoChk.staPercentile staPercentile
  rw [if_neg h]

/-- C147. `zsl_sta_percentile`. -/
theorem nochk_sta_percentile (fuel : Nat) (extra : List R) (junk : Nat → R) (v : Vec R) (p val : R) :
    SameIfAccepted (staPercentile fuel extra junk v p val) (NoChk.staPercentile fuel extra junk v p val) := by
  refine sameIf_of_eq fun ⟨out, h⟩ => ?_
  exact percentile_eq (passed h)

theorem percentile_const {fuel : Nat} {extra : List XR} {junk : Nat → XR} {v : Vec XR} {k : Rat} {val : XR} (h0 : 0 ≤ k) (h1 : k ≤ 100) :
    NoChk.staPercentile fuel extra junk v (lit k) val = staPercentile fuel extra junk v (lit k) val := by
  refine percentile_eq ?_
  have h1' : (k : ℝ) ≤ 100 := by exact_mod_cast h1
  simp [XR.lit_eq, h0, h1']

/-- C147. `zsl_sta_median`, `zsl_sta_quart`, `zsl_sta_quart_range` and `zsl_sta_median_abs_dev` do the same in both builds. -/
theorem nochk_sta_quartiles (fuel : Nat) (extra : List XR) (junk : Nat → XR) (v : Vec XR) (m q1 q2 q3 : XR) :
    NoChk.staMedian fuel extra junk v m = staMedian fuel extra junk v m ∧
    NoChk.staQuart fuel extra junk v q1 q2 q3 = staQuart fuel extra junk v q1 q2 q3 ∧
    NoChk.staQuartRange fuel extra junk v = staQuartRange fuel extra junk v ∧
    NoChk.staMedianAbsDev fuel extra junk v m = staMedianAbsDev fuel extra junk v m := by
  have hm : ∀ (v : Vec XR) (m : XR), NoChk.staMedian fuel extra junk v m = staMedian fuel extra junk v m := by
    intro v m
    unfold NoChk.staMedian staMedian
    rw [percentile_const (by norm_num) (by norm_num)]
  refine ⟨hm v m, ?_, ?_, ?_⟩
  · unfold NoChk.staQuart staQuart
    simp only [percentile_const (k := 25) (by norm_num) (by norm_num), percentile_const (k := 50) (by norm_num) (by norm_num),
      percentile_const (k := 75) (by norm_num) (by norm_num)]
  · unfold NoChk.staQuartRange staQuartRange
    simp only [percentile_const (k := 25) (by norm_num) (by norm_num), percentile_const (k := 75) (by norm_num) (by norm_num)]
  · unfold NoChk.staMedianAbsDev staMedianAbsDev
    simp only [hm]

theorem sz_sort {fuel : Nat} {extra : List R} {v w w' : Vec R} {rc : Int} (he : vecSort fuel extra v w = ok (rc, w')) : w'.sz = w.sz := by
  unfold vecSort at he
  obtain ⟨_, _, he⟩ := bind_ok he
  obtain ⟨_, _, he⟩ := bind_ok he
  obtain ⟨_, _, he⟩ := bind_ok he
  obtain ⟨_, _, he⟩ := bind_ok he
  injection he with he
  exact (congrArg (fun p : Int × Vec R => p.2.sz) he).symm

/-- C147. `zsl_sta_trim_mean`: the window of the sorted data never reaches past the end. -/
theorem nochk_sta_trim_mean (fuel : Nat) (extra : List XR) (junk : Nat → XR) (v : Vec XR) (p m : XR) :
    SameIfAccepted (staTrimMean fuel extra junk v p m) (NoChk.staTrimMean fuel extra junk v p m) := by
  refine sameIf_of_eq fun ⟨out, h⟩ => ?_
  have hp := passed h
  have hp1 : ¬ (CReal.gt p (lit 100) || CReal.lt p (lit 0)) = true := by
    cases p with
    | fin x =>
      simp [XR.lit_eq] at hp ⊢
      constructor <;> linarith
    | nan => exact Bool.false_ne_true
    | pinf => exact absurd rfl hp
    | ninf => exact absurd rfl hp
  have hp2 : ¬ (CReal.gt (lit 100 - p) (lit 100) || CReal.lt (lit 100 - p) (lit 0)) = true := by
    cases p with
    | fin x =>
      simp [XR.lit_eq] at hp ⊢
      constructor <;> linarith
    | nan => exact Bool.false_ne_true
    | pinf => exact absurd rfl hp
    | ninf => exact absurd rfl hp
  unfold NoChk.staTrimMean staTrimMean
  rw [if_neg hp]
  by_cases h0 : v.sz = 0
  · rw [if_pos h0, if_pos h0]
  rw [if_neg h0, if_neg h0]
  refine bind_congr_ok (percentile_eq hp1) fun ⟨_, perL⟩ _ => ?_
  refine bind_congr_ok (percentile_eq hp2) fun ⟨_, perH⟩ _ => ?_
  refine bind_congr_ok rfl fun ⟨_, w⟩ hw => ?_
  refine bind_congr_ok rfl fun ⟨_, w'⟩ hw' => ?_
  have hsz : w'.sz = v.sz := (sz_sort hw').trans (sz_init (v := Vec.uninit junk v.sz) hw)
  refine bind_congr_ok rfl fun ⟨f, c⟩ hf => ?_
  dsimp only
  by_cases hc : c = 0
  · rw [if_pos hc, if_pos hc]
  rw [if_neg hc, if_neg hc]
  have hinv : c = 0 ∨ f + c ≤ v.sz := by
    have := (forN_congr_inv (fun i (s : Nat × Nat) => s.2 = 0 ∨ s.1 + s.2 ≤ i) (Or.inl rfl) (fun _ _ _ _ => rfl) ?_).2 (f, c) hf
    · exact this
    · rintro i hi ⟨a, b⟩ ⟨a', b'⟩ hab hs
      obtain ⟨x, _, hs⟩ := bind_ok hs
      injection hs with hs
      simp only [Prod.mk.injEq] at hs
      dsimp only at hab ⊢
      obtain ⟨rfl, rfl⟩ := hs
      split_ifs <;> omega
  rw [subset_eq (by omega) (by omega) (by simp [Vec.uninit])]

/-- C147. `zsl_sta_weighted_mean`. -/
theorem nochk_sta_weighted_mean (v w : Vec R) (m : R) : SameIfAccepted (staWeightedMean v w m) (NoChk.staWeightedMean v w m) := by
  intro out h
  unfold staWeightedMean at h
  obtain ⟨sumw, h1, h⟩ := bind_ok h
  have h2 := passed h
  rw [if_neg h2] at h
  obtain ⟨c, _, h⟩ := bind_ok h
  cases c with
  | ret _ => exact (not_zero_einval h).elim
  | next _ =>
    dsimp only at h
    rw [if_neg (passed h)] at h
    unfold NoChk.staWeightedMean
    rw [h1]
    exact h

/-- C147. `zsl_sta_time_weighted_mean`. -/
theorem nochk_sta_time_weighted_mean (fuel : Nat) (extra : List R) (junk : Nat → R) (v t : Vec R) (m : R) :
    SameIfAccepted (staTimeWeightedMean fuel extra junk v t m) (NoChk.staTimeWeightedMean fuel extra junk v t m) := by
  intro out h
  unfold staTimeWeightedMean at h
  have h2 := passed h
  rw [if_neg h2] at h
  obtain ⟨c, _, h⟩ := bind_ok h
  cases c with
  | ret _ => exact (not_zero_einval h).elim
  | next _ =>
    dsimp only at h
    obtain ⟨c, _, h⟩ := bind_ok h
    cases c with
    | ret _ => exact (not_zero_einval h).elim
    | next _ =>
      dsimp only at h
      unfold NoChk.staTimeWeightedMean
      by_cases h0 : t.sz = 0
      · rw [if_pos h0] at h
        cases h
      · rw [if_neg h0] at h
        rw [if_neg (by omega)]
        exact h

/-- C147. `zsl_sta_weighted_median`. -/
theorem nochk_sta_weighted_median (fuel : Nat) (extra : List R) (junk : Nat → R) (v w : Vec R) (m : R) :
    SameIfAccepted (staWeightedMedian fuel extra junk v w m) (NoChk.staWeightedMedian fuel extra junk v w m) := by
  intro out h
  unfold staWeightedMedian at h
  have h2 := passed h
  rw [if_neg h2] at h
  obtain ⟨c, _, h⟩ := bind_ok h
  cases c with
  | ret _ => exact (not_zero_einval h).elim
  | next _ =>
    dsimp only at h
    rw [if_neg (passed h)] at h
    exact h

/-- C147. `zsl_sta_mode`. -/
theorem nochk_sta_mode (junk : Nat → R) (v w : Vec R) : SameIfAccepted (staMode junk v w) (NoChk.staMode junk v w) := by
  refine sameIf_of_eq fun ⟨out, h⟩ => ?_
  have := passed h
  unfold NoChk.staMode staMode
  rw [if_neg this]

/-! ### Deviation and covariance -/

theorem demean_eq {m0 : R} {v w : Vec R} (h : v.sz = w.sz) : NoChk.staDemean m0 v w = staDemean m0 v w := by
  unfold NoChk.staDemean staDemean
  rw [if_neg (by omega)]

/-- C147. `zsl_sta_demean`. -/
theorem nochk_sta_demean (m0 : R) (v w : Vec R) : SameIfAccepted (staDemean m0 v w) (NoChk.staDemean m0 v w) := by
  refine sameIf_of_eq fun ⟨out, h⟩ => ?_
  have := passed h
  exact demean_eq (by omega)

/-- C147. `zsl_sta_mean_abs_dev`. -/
theorem nochk_sta_mean_abs_dev (junk : Nat → R) (v : Vec R) (m : R) : SameIfAccepted (staMeanAbsDev junk v m) (NoChk.staMeanAbsDev junk v m) := by
  refine sameIf_of_eq fun ⟨out, h⟩ => ?_
  have := passed h
  unfold NoChk.staMeanAbsDev staMeanAbsDev
  rw [if_neg this, if_neg this, demean_eq (v := v) (w := Vec.uninit junk v.sz) rfl]

/-- C147. `zsl_sta_var` and `zsl_sta_std_dev` do the same in both builds. -/
theorem nochk_sta_var (junk : Nat → R) (v : Vec R) : NoChk.staVar junk v = staVar junk v ∧ NoChk.staStdDev junk v = staStdDev junk v := by
  have : NoChk.staVar junk v = staVar junk v := by
    unfold NoChk.staVar staVar
    rw [demean_eq (v := v) (w := Vec.uninit junk v.sz) rfl]
  refine ⟨this, ?_⟩
  unfold NoChk.staStdDev staStdDev
  rw [this]

/-- C147. `zsl_sta_sta_err`. -/
theorem nochk_sta_sta_err (junk : Nat → R) (v : Vec R) (err : R) : SameIfAccepted (staStaErr junk v err) (NoChk.staStaErr junk v err) := by
  refine sameIf_of_eq fun ⟨out, h⟩ => ?_
  have := passed h
  unfold NoChk.staStaErr staStaErr
  rw [if_neg this, (nochk_sta_var junk v).1]

theorem covar_eq {junk : Nat → R} {v w : Vec R} {c : R} (h : v.sz = w.sz) : NoChk.staCovar junk v w c = staCovar junk v w c := by
  unfold NoChk.staCovar staCovar
  rw [if_neg (c := v.sz ≠ w.sz) (by omega), demean_eq (v := v) (w := Vec.uninit junk v.sz) rfl, demean_eq (v := w) (w := Vec.uninit junk w.sz) rfl]
  simp only [← h, or_self]

/-- C147. `zsl_sta_covar`. -/
theorem nochk_sta_covar (junk : Nat → R) (v w : Vec R) (c : R) : SameIfAccepted (staCovar junk v w c) (NoChk.staCovar junk v w c) := by
  refine sameIf_of_eq fun ⟨out, h⟩ => ?_
  have := passed h
  exact covar_eq (by omega)

/-- C147. `zsl_sta_covar_mtx`. -/
theorem nochk_sta_covar_mtx (junk : Nat → R) (m mc : Mtx R) : SameIfAccepted (staCovarMtx junk m mc) (NoChk.staCovarMtx junk m mc) := by
  refine sameIf_of_eq fun ⟨out, h⟩ => ?_
  have hs := passed h
  unfold NoChk.staCovarMtx staCovarMtx
  rw [if_neg hs]
  by_cases h0 : m.rows = 0
  · rw [if_pos h0, if_pos h0]
  rw [if_neg h0, if_neg h0]
  refine bind_congr_ok ?_ fun _ _ => rfl
  refine (forN_congr_inv (fun _ _ => True) trivial (fun i hi s _ => ?_) fun _ _ _ _ _ _ => trivial).1
  refine (forN_congr_inv (fun _ _ => True) trivial (fun j hj s _ => ?_) fun _ _ _ _ _ _ => trivial).1
  rw [getCol_eq hi]
  refine bind_congr_ok rfl fun ⟨_, v1⟩ _ => ?_
  dsimp only
  rw [getCol_eq hj]
  refine bind_congr_ok rfl fun ⟨_, v2⟩ _ => ?_
  dsimp only
  rw [covar_eq (v := ⟨m.rows, v1⟩) (w := ⟨m.rows, v2⟩) rfl]

/-! ### Regression -/

/-- C147. `zsl_sta_linear_reg`. -/
theorem nochk_sta_linear_reg (x y : Vec R) (c : LinReg R) : SameIfAccepted (staLinearReg x y c) (NoChk.staLinearReg x y c) := by
  refine sameIf_of_eq fun ⟨out, h⟩ => ?_
  have := passed h
  unfold NoChk.staLinearReg staLinearReg
  rw [if_neg this]

theorem expand_eq {junk : Nat → R} {x : Mtx R} : NoChk.regExpand junk x = regExpand junk x ∧
    ∀ xe, regExpand junk x = ok xe → Shp xe x.rows (x.cols + 1) := by
  have hloop : ∀ (xe : Mtx R) (a : List R), Shp xe x.rows (x.cols + 1) →
      forN x.cols (fun j (s : Mtx R × List R) => do
        let (_, a) ← NoChk.mtxGetCol x j s.2
        let (_, xe) ← NoChk.mtxSetCol s.1 (j + 1) a
        return (xe, a)) (xe, a) =
      forN x.cols (fun j (s : Mtx R × List R) => do
        let (_, a) ← mtxGetCol x j s.2
        let (_, xe) ← mtxSetCol s.1 (j + 1) a
        return (xe, a)) (xe, a) ∧
      ∀ t, forN x.cols (fun j (s : Mtx R × List R) => do
        let (_, a) ← mtxGetCol x j s.2
        let (_, xe) ← mtxSetCol s.1 (j + 1) a
        return (xe, a)) (xe, a) = ok t → Shp t.1 x.rows (x.cols + 1) := by
    intro xe a hx
    refine forN_congr_inv (fun _ (s : Mtx R × List R) => Shp s.1 x.rows (x.cols + 1)) hx (fun j hj s hs => ?_) fun j hj s t hs ht => ?_
    · refine bind_congr_ok (getCol_eq hj) fun ⟨_, a⟩ _ => ?_
      dsimp only
      rw [setCol_eq (by rw [hs.2]; omega)]
    · obtain ⟨⟨_, a⟩, _, ht⟩ := bind_ok ht
      obtain ⟨⟨_, x'⟩, h2, ht⟩ := bind_ok ht
      injection ht with ht
      rw [← ht]
      exact shp_setCol hs h2
  unfold NoChk.regExpand regExpand
  have hi := init_none (m := Mtx.uninit junk x.rows (x.cols + 1))
  constructor
  · refine bind_congr_ok hi.1 fun ⟨_, xe⟩ h1 => ?_
    have s1 : Shp xe x.rows (x.cols + 1) := hi.2 _ _ h1
    dsimp only
    refine bind_congr_ok rfl fun a _ => ?_
    refine bind_congr_ok (setCol_eq (by rw [s1.2]; omega)) fun ⟨_, xe2⟩ h2 => ?_
    dsimp only
    rw [(hloop xe2 a (shp_setCol s1 h2)).1]
  · intro xe h
    obtain ⟨⟨_, x1⟩, h1, h⟩ := bind_ok h
    obtain ⟨a, _, h⟩ := bind_ok h
    obtain ⟨⟨_, x2⟩, h2, h⟩ := bind_ok h
    obtain ⟨⟨x3, _⟩, h3, h⟩ := bind_ok h
    injection h with h
    rw [← h]
    exact (hloop x2 a (shp_setCol (hi.2 _ _ h1) h2)).2 _ h3

theorem quality_eq {junk : Nat → R} {xe bm ym : Mtx R} {y : Vec R} (h1 : xe.cols = bm.rows) (h2 : bm.cols = 1) (h3 : Shp ym xe.rows 1) :
    NoChk.regQuality junk xe bm ym y = regQuality junk xe bm ym y := by
  unfold NoChk.regQuality regQuality
  refine bind_congr_ok (mult_eq (a := xe) (b := bm) (c := Mtx.uninit junk xe.rows 1) h1 rfl h2.symm) fun ⟨_, t⟩ ht => ?_
  have st : Shp t xe.rows 1 := shp_mult (c := Mtx.uninit junk xe.rows 1) (shp_self _) ht
  dsimp only
  rw [show NoChk.mtxSub ym t (Mtx.uninit junk xe.rows 1) = mtxSub ym t (Mtx.uninit junk xe.rows 1) from
    binaryOp_eq (a := ym) (b := t) (c := Mtx.uninit junk xe.rows 1) (h3.1.trans st.1.symm) st.1 (h3.2.trans st.2.symm) st.2]

/-- C147. `zsl_sta_mult_linear_reg`. -/
theorem nochk_sta_mult_linear_reg (junk : Nat → R) (x : Mtx R) (y b : Vec R) (r : R) :
    SameIfAccepted (staMultLinearReg junk x y b r) (NoChk.staMultLinearReg junk x y b r) := by
  refine sameIf_of_eq fun ⟨out, h⟩ => ?_
  have hs := passed h
  unfold NoChk.staMultLinearReg staMultLinearReg
  rw [if_neg (c := x.rows ≠ y.sz ∨ x.cols + 1 ≠ b.sz) hs]
  by_cases h0 : x.rows = 0
  · rw [if_pos (Or.inl h0), if_pos h0]
  rw [if_neg (by omega), if_neg h0]
  refine bind_congr_ok expand_eq.1 fun xe hxe => ?_
  have se := expand_eq.2 xe hxe
  refine bind_congr_ok (trans_eq (a := xe) (b := Mtx.uninit junk (x.cols + 1) x.rows) se.1 se.2) fun ⟨_, xt⟩ hxt => ?_
  have sxt : Shp xt (x.cols + 1) x.rows := shp_trans (b := Mtx.uninit junk (x.cols + 1) x.rows) (shp_self _) hxt
  dsimp only
  refine bind_congr_ok (mult_eq (a := xt) (b := xe) (c := Mtx.uninit junk (x.cols + 1) (x.cols + 1)) (sxt.2.trans se.1.symm) sxt.1.symm
    se.2.symm) fun ⟨_, xx⟩ hxx => ?_
  have sxx : Shp xx (x.cols + 1) (x.cols + 1) := shp_mult (c := Mtx.uninit junk (x.cols + 1) (x.cols + 1)) (shp_self _) hxx
  dsimp only
  refine bind_congr_ok (deter_eq fun _ _ _ => sxx.2.trans sxx.1.symm) fun ⟨_, det⟩ _ => ?_
  dsimp only
  split_ifs
  · rfl
  refine bind_congr_ok (inv_eq (m := xx) (mi := Mtx.uninit junk (x.cols + 1) (x.cols + 1)) sxx.1.symm sxx.2.symm) fun ⟨_, xi⟩ hxi => ?_
  have sxi : Shp xi (x.cols + 1) (x.cols + 1) := shp_inv (mi := Mtx.uninit junk (x.cols + 1) (x.cols + 1)) sxx.1.symm sxx.2.symm hxi
  dsimp only
  refine bind_congr_ok rfl fun ⟨_, ym⟩ hym => ?_
  have sym : Shp ym y.sz 1 := shp_fromArr (a := Mtx.uninit junk y.sz 1) (shp_self _) hym
  dsimp only
  refine bind_congr_ok (mult_eq (a := xi) (b := xt) (c := Mtx.uninit junk (x.cols + 1) x.rows) (sxi.2.trans sxt.1.symm) sxi.1.symm
    sxt.2.symm) fun ⟨_, t⟩ ht => ?_
  have st : Shp t (x.cols + 1) x.rows := shp_mult (c := Mtx.uninit junk (x.cols + 1) x.rows) (shp_self _) ht
  dsimp only
  refine bind_congr_ok (mult_eq (a := t) (b := ym) (c := Mtx.uninit junk (x.cols + 1) 1) (by rw [st.2, sym.1]; omega) st.1.symm
    sym.2.symm) fun ⟨_, bm⟩ hbm => ?_
  have sbm : Shp bm (x.cols + 1) 1 := shp_mult (c := Mtx.uninit junk (x.cols + 1) 1) (shp_self _) hbm
  dsimp only
  rw [quality_eq (se.2.trans sbm.1.symm) sbm.2 ⟨by rw [sym.1, se.1]; omega, sym.2⟩]

/-- C147. `zsl_sta_weighted_mult_linear_reg`. -/
theorem nochk_sta_weighted_mult_linear_reg (junk : Nat → R) (x : Mtx R) (y w b : Vec R) (r : R) :
    SameIfAccepted (staWeightedMultLinearReg junk x y w b r) (NoChk.staWeightedMultLinearReg junk x y w b r) := by
  intro out h
  unfold staWeightedMultLinearReg at h
  have hs := passed h
  rw [if_neg hs] at h
  obtain ⟨c, _, h⟩ := bind_ok h
  cases c with
  | ret _ => exact (not_zero_einval h).elim
  | next _ =>
    dsimp only at h
    by_cases h0 : x.rows = 0
    · rw [if_pos h0] at h
      cases h
    rw [if_neg h0] at h
    rw [← h]
    unfold NoChk.staWeightedMultLinearReg
    rw [if_neg (by omega)]
    have hid := init_identity (m := Mtx.uninit junk w.sz w.sz)
    refine bind_congr_ok hid.1 fun ⟨_, idx⟩ h1 => ?_
    have sid : Shp idx w.sz w.sz := hid.2 _ _ h1
    dsimp only
    have hl := forN_congr_inv (n := w.sz) (s := (w.data, idx)) (f := fun k (s : List R × Mtx R) => do
          let a ← rd s.1 k
          let wd ← wr s.1 k (lit 1 / a)
          let a ← rd wd k
          let (_, idx) ← NoChk.mtxScalarMultRowD s.2 k a
          return (wd, idx)) (g := fun k (s : List R × Mtx R) => do
          let a ← rd s.1 k
          let wd ← wr s.1 k (lit 1 / a)
          let a ← rd wd k
          let (_, idx) ← mtxScalarMultRowD s.2 k a
          return (wd, idx)) (fun _ s => Shp s.2 w.sz w.sz) sid (by
      intro k hk s hsh
      refine bind_congr_ok rfl fun _ _ => bind_congr_ok rfl fun _ _ => bind_congr_ok rfl fun a _ => ?_
      rw [scalarMultRow_eq (by rw [hsh.1]; exact hk)]) (by
      intro k hk s t hsh ht
      obtain ⟨_, _, ht⟩ := bind_ok ht
      obtain ⟨_, _, ht⟩ := bind_ok ht
      obtain ⟨_, _, ht⟩ := bind_ok ht
      obtain ⟨⟨_, i'⟩, h2, ht⟩ := bind_ok ht
      injection ht with ht
      rw [← ht]
      exact shp_scalarMultRow hsh h2)
    refine bind_congr_ok hl.1 fun ⟨wd, idx'⟩ h2 => ?_
    have sid' : Shp idx' w.sz w.sz := hl.2 _ h2
    dsimp only
    refine bind_congr_ok expand_eq.1 fun xe hxe => ?_
    have se := expand_eq.2 xe hxe
    refine bind_congr_ok (trans_eq (a := xe) (b := Mtx.uninit junk (x.cols + 1) x.rows) se.1 se.2) fun ⟨_, xt⟩ hxt => ?_
    have sxt : Shp xt (x.cols + 1) x.rows := shp_trans (b := Mtx.uninit junk (x.cols + 1) x.rows) (shp_self _) hxt
    dsimp only
    refine bind_congr_ok (mult_eq (a := xt) (b := idx') (c := Mtx.uninit junk (x.cols + 1) x.rows) (by rw [sxt.2, sid'.1]; omega) sxt.1.symm
      (by rw [sid'.2]; simp [Mtx.uninit]; omega)) fun ⟨_, xw⟩ hxw => ?_
    have sxw : Shp xw (x.cols + 1) x.rows := shp_mult (c := Mtx.uninit junk (x.cols + 1) x.rows) (shp_self _) hxw
    dsimp only
    refine bind_congr_ok (mult_eq (a := xw) (b := xe) (c := Mtx.uninit junk (x.cols + 1) (x.cols + 1)) (sxw.2.trans se.1.symm) sxw.1.symm
      se.2.symm) fun ⟨_, xx⟩ hxx => ?_
    have sxx : Shp xx (x.cols + 1) (x.cols + 1) := shp_mult (c := Mtx.uninit junk (x.cols + 1) (x.cols + 1)) (shp_self _) hxx
    dsimp only
    refine bind_congr_ok (deter_eq fun _ _ _ => sxx.2.trans sxx.1.symm) fun ⟨_, det⟩ _ => ?_
    dsimp only
    split_ifs
    · rfl
    refine bind_congr_ok (inv_eq (m := xx) (mi := Mtx.uninit junk (x.cols + 1) (x.cols + 1)) sxx.1.symm sxx.2.symm) fun ⟨_, xi⟩ hxi => ?_
    have sxi : Shp xi (x.cols + 1) (x.cols + 1) := shp_inv (mi := Mtx.uninit junk (x.cols + 1) (x.cols + 1)) sxx.1.symm sxx.2.symm hxi
    dsimp only
    refine bind_congr_ok rfl fun ⟨_, ym⟩ hym => ?_
    have sym : Shp ym y.sz 1 := shp_fromArr (a := Mtx.uninit junk y.sz 1) (shp_self _) hym
    dsimp only
    refine bind_congr_ok (mult_eq (a := xi) (b := xw) (c := Mtx.uninit junk (x.cols + 1) x.rows) (sxi.2.trans sxw.1.symm) sxi.1.symm
      sxw.2.symm) fun ⟨_, t⟩ ht => ?_
    have st : Shp t (x.cols + 1) x.rows := shp_mult (c := Mtx.uninit junk (x.cols + 1) x.rows) (shp_self _) ht
    dsimp only
    refine bind_congr_ok (mult_eq (a := t) (b := ym) (c := Mtx.uninit junk (x.cols + 1) 1) (by rw [st.2, sym.1]; omega) st.1.symm
      sym.2.symm) fun ⟨_, bm⟩ hbm => ?_
    have sbm : Shp bm (x.cols + 1) 1 := shp_mult (c := Mtx.uninit junk (x.cols + 1) 1) (shp_self _) hbm
    dsimp only
    rw [quality_eq (se.2.trans sbm.1.symm) sbm.2 ⟨by rw [sym.1, se.1]; omega, sym.2⟩]

theorem quadFit_eq {junk : Nat → R} {m : Mtx R} {b : Vec R} (hs : ¬ (m.cols ≠ 3 ∨ b.sz ≠ 9)) : NoChk.staQuadFit junk m b = staQuadFit junk m b := by
  unfold NoChk.staQuadFit staQuadFit
  rw [if_neg hs]
  by_cases h0 : m.rows = 0
  · rw [if_pos h0, if_pos h0]
  rw [if_neg h0, if_neg h0]
  have hl := forN_congr_inv (n := m.rows) (s := (Mtx.uninit junk m.rows 9, junkArr junk m.rows, junkArr junk 3, junkArr junk 9))
    (f := fun i (s : Mtx R × List R × List R × List R) => do
      let (_, mv) ← NoChk.mtxGetRow m i s.2.2.1
      let xv ← quadRow mv s.2.2.2
      let (_, x) ← NoChk.mtxSetRow s.1 i xv
      let y ← wr s.2.1 i (lit 1)
      return (x, y, mv, xv))
    (g := fun i (s : Mtx R × List R × List R × List R) => do
      let (_, mv) ← mtxGetRow m i s.2.2.1
      let xv ← quadRow mv s.2.2.2
      let (_, x) ← mtxSetRow s.1 i xv
      let y ← wr s.2.1 i (lit 1)
      return (x, y, mv, xv)) (fun _ s => Shp s.1 m.rows 9) (shp_self _) (by
    intro i hi s hsh
    refine bind_congr_ok (getRow_eq hi) fun ⟨_, mv⟩ _ => ?_
    dsimp only
    refine bind_congr_ok rfl fun xv _ => ?_
    rw [(setRow_eq (by rw [hsh.1]; exact hi)).1]) (by
    intro i hi s t hsh ht
    obtain ⟨⟨_, mv⟩, _, ht⟩ := bind_ok ht
    obtain ⟨xv, _, ht⟩ := bind_ok ht
    obtain ⟨⟨_, x⟩, h2, ht⟩ := bind_ok ht
    obtain ⟨y, _, ht⟩ := bind_ok ht
    injection ht with ht
    rw [← ht]
    have := (setRow_eq (m := s.1) (i := i) (v := xv) (by rw [hsh.1]; exact hi)).2 _ _ h2
    exact ⟨this.1.trans hsh.1, this.2.trans hsh.2⟩)
  refine bind_congr_ok hl.1 fun ⟨x, y, _, _⟩ hx => ?_
  have sx : Shp x m.rows 9 := hl.2 _ hx
  dsimp only
  refine bind_congr_ok (trans_eq (a := x) (b := Mtx.uninit junk 9 m.rows) sx.1 sx.2) fun ⟨_, xt⟩ hxt => ?_
  have sxt : Shp xt 9 m.rows := shp_trans (b := Mtx.uninit junk 9 m.rows) (shp_self _) hxt
  dsimp only
  refine bind_congr_ok (mult_eq (a := xt) (b := x) (c := Mtx.uninit junk 9 9) (sxt.2.trans sx.1.symm) sxt.1.symm sx.2.symm) fun ⟨_, xx⟩ hxx => ?_
  have sxx : Shp xx 9 9 := shp_mult (c := Mtx.uninit junk 9 9) (shp_self _) hxx
  dsimp only
  refine bind_congr_ok (inv_eq (m := xx) (mi := Mtx.uninit junk 9 9) sxx.1.symm sxx.2.symm) fun ⟨_, xi⟩ hxi => ?_
  have sxi : Shp xi 9 9 := shp_inv (mi := Mtx.uninit junk 9 9) sxx.1.symm sxx.2.symm hxi
  dsimp only
  refine bind_congr_ok (mult_eq (a := xi) (b := xt) (c := Mtx.uninit junk 9 m.rows) (sxi.2.trans sxt.1.symm) sxi.1.symm sxt.2.symm)
    fun ⟨_, t⟩ ht => ?_
  have st : Shp t 9 m.rows := shp_mult (c := Mtx.uninit junk 9 m.rows) (shp_self _) ht
  dsimp only
  rw [mult_eq (a := t) (b := ⟨m.rows, 1, y⟩) (c := Mtx.uninit junk 9 1) st.2 st.1.symm rfl]

/-- C147. `zsl_sta_quad_fit`. -/
theorem nochk_sta_quad_fit (junk : Nat → R) (m : Mtx R) (b : Vec R) : SameIfAccepted (staQuadFit junk m b) (NoChk.staQuadFit junk m b) :=
  sameIf_of_eq fun ⟨_, h⟩ => quadFit_eq (passed h)

/-! Non-vacuity: accepted calls. -/

example (x y z : R) (junk : Nat → R) : ∃ out, staCovar junk ⟨2, [x, y]⟩ ⟨2, [y, z]⟩ z = ok (0, out) := ⟨_, rfl⟩
example (x y a b : R) (c : LinReg R) : ∃ out, staLinearReg ⟨2, [x, y]⟩ ⟨2, [a, b]⟩ c = ok (0, out) := ⟨_, rfl⟩
example (x y m0 : R) : ∃ out, staDemean m0 ⟨2, [x, y]⟩ ⟨2, [x, x]⟩ = ok (0, out) := ⟨_, rfl⟩

end Verif
