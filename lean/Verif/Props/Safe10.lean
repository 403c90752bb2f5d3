import Verif.Props.Safe9
import Verif.Model.Statistics
import Verif.Model.Probability

/-!
# Memory safety of the statistics functions for every content (C149)

`R` is any scalar type, so the theorems hold for IEEE numbers with NaN, infinities and rounding. The functions that sort their data
are not covered here: sorting leaves its buffers for some data, see C12.
-/

namespace Verif

open Out

set_option linter.unusedSectionVars false

variable {R : Type} [CReal R]

/-- C149. `zsl_sta_mean`. -/
theorem sta_mean_safe (v : Vec R) (m : R) (h : v.WF) : (staMean v m).sat fun p => p.1 = 0 :=
  (vec_ar_mean_safe v m h).bind fun _ _ => satp rfl

/-- C149. `zsl_sta_weighted_mean`; the weights need a buffer with as many cells as there are data. -/
theorem sta_weighted_mean_safe (v w : Vec R) (m : R) (h : v.WF) (hw : v.sz ≤ w.data.length) : (staWeightedMean v w m).sat fun _ => True := by
  unfold Vec.WF at h
  unfold staWeightedMean
  refine Out.sat.bind (P := fun _ => True) (forN_inv _ trivial fun i hi t _ => by simp; omega) fun s _ => ?_
  refine ite_sat (fun _ => satp trivial) fun _ => ?_
  refine Out.sat.bind (P := fun _ => True) ?_ ?_
  · refine (forRet_inv (fun _ => True) (fun _ => True) trivial fun i hi t _ => ?_).mono (by simp)
    rw [rd_lt (by omega), ok_bind]
    exact ite_sat (fun _ => satp trivial) fun _ => satp trivial
  · rintro (_ | _) _
    · dsimp only
      refine ite_sat (fun _ => satp trivial) fun _ => ?_
      exact Out.sat.bind (P := fun _ => True) (forN_inv _ trivial fun i hi t _ => by simp; omega) fun _ _ => satp trivial
    · exact satp trivial

/-- C149. `zsl_sta_demean`, for all sizes. -/
theorem sta_demean_safe (m0 : R) (v w : Vec R) (hv : v.WF) (hw : w.WF) : (staDemean m0 v w).sat fun p => w.Like p.2 := by
  unfold staDemean
  split
  · simp [Vec.Like]
  rename_i hs
  push Not at hs
  refine (vec_copy_safe w v hv (by unfold Vec.WF at hw; omega)).bind fun ⟨_, w1⟩ l1 => ?_
  dsimp only at l1 ⊢
  refine (sta_mean_safe v m0 hv).bind fun ⟨_, m⟩ _ => ?_
  dsimp only
  have hw1 : w1.WF := by
    unfold Vec.WF at *
    omega
  refine (vec_scalar_safe w1 (-m) hw1).1.bind fun ⟨_, w2⟩ l2 => satp ?_
  exact ⟨l2.1.trans (l1.1.trans hs), l2.2.trans l1.2⟩

theorem demean_uninit (m0 : R) (junk : ℕ → R) (v : Vec R) (hv : v.WF) :
    (staDemean m0 v (Vec.uninit junk v.sz)).sat fun p => p.2.data.length = v.sz :=
  (sta_demean_safe m0 v _ hv (Vec.wf_uninit junk _)).mono fun p l => by
    rw [l.2]
    simp

/-- C149. `zsl_sta_mean_abs_dev`. -/
theorem sta_mean_abs_dev_safe (junk : ℕ → R) (v : Vec R) (m : R) (h : v.WF) : (staMeanAbsDev junk v m).sat fun _ => True := by
  unfold staMeanAbsDev
  refine ite_sat (fun _ => by simp) fun _ => ?_
  refine (demean_uninit (junk 0) junk v h).bind fun ⟨_, d⟩ l => ?_
  dsimp only at l ⊢
  exact Out.sat.bind (P := fun _ => True) (forN_inv _ trivial fun i hi t _ => by simp; omega) fun _ _ => satp trivial

/-- C149. `zsl_sta_var`, `zsl_sta_std_dev` and `zsl_sta_sta_err`, for non-empty data (`zsl_sta_sta_err` refuses the empty vector). -/
theorem sta_var_safe (junk : ℕ → R) (v : Vec R) (e : R) (h : v.WF) :
    (0 < v.sz → ((staVar junk v).sat fun p => p.1 = 0) ∧ (staStdDev junk v).sat fun p => p.1 = 0) ∧ (staStaErr junk v e).sat fun _ => True := by
  have hvar : 0 < v.sz → (staVar junk v).sat fun p => p.1 = 0 := by
    intro h0
    unfold staVar
    rw [if_neg (by omega)]
    refine (demean_uninit (junk 0) junk v h).bind fun ⟨_, d⟩ l => ?_
    dsimp only at l ⊢
    exact Out.sat.bind (P := fun _ => True) (forN_inv _ trivial fun i hi t _ => by simp; omega) fun _ _ => satp rfl
  refine ⟨fun h0 => ⟨hvar h0, (hvar h0).bind fun _ _ => satp rfl⟩, ?_⟩
  unfold staStaErr
  refine ite_sat (fun _ => by simp) fun h0 => ?_
  exact (hvar (by omega)).bind fun _ _ => satp trivial

/-- C149. `zsl_sta_covar`, for non-empty data of all sizes. -/
theorem sta_covar_safe (junk : ℕ → R) (v w : Vec R) (c : R) (hv : v.WF) (hw : w.WF) (h0 : 0 < v.sz) :
    (staCovar junk v w c).sat fun _ => True := by
  unfold staCovar
  refine ite_sat (fun _ => by simp) fun hs => ?_
  rw [if_neg (by omega)]
  refine (demean_uninit (junk 0) junk v hv).bind fun ⟨_, a⟩ la => ?_
  dsimp only at la ⊢
  refine (demean_uninit (junk 0) junk w hw).bind fun ⟨_, b⟩ lb => ?_
  dsimp only at lb ⊢
  exact Out.sat.bind (P := fun _ => True) (forN_inv _ trivial fun i hi t _ => by simp; omega) fun _ _ => satp trivial

/-- C149. `zsl_sta_covar_mtx`, for matrices with at least one row and outputs of all shapes. -/
theorem sta_covar_mtx_safe (junk : ℕ → R) (m mc : Mtx R) (hm : m.WF) (hc : mc.WF) (h0 : 0 < m.rows) :
    (staCovarMtx junk m mc).sat fun p => mc.Like p.2 := by
  unfold staCovarMtx
  refine ite_sat (fun _ => by simp [Mtx.Like]) fun hs => ?_
  push Not at hs
  rw [if_neg (by omega)]
  refine Out.sat.bind (P := fun s : List R × List R × List R => s.1.length = mc.data.length ∧ s.2.1.length = m.rows ∧ s.2.2.length = m.rows) ?_
    fun ⟨d, _, _⟩ h => satp ⟨rfl, rfl, h.1⟩
  refine forN_inv _ (by simp) fun i hi s hs' => forN_inv _ hs' fun j hj s ⟨h1, h2, h3⟩ => ?_
  refine (mtx_get_col_safe m i s.2.1 hm (by omega)).bind fun ⟨_, v1⟩ l1 => ?_
  dsimp only at l1 ⊢
  refine (mtx_get_col_safe m j s.2.2 hm (by omega)).bind fun ⟨_, v2⟩ l2 => ?_
  dsimp only at l2 ⊢
  refine (sta_covar_safe junk ⟨m.rows, v1⟩ ⟨m.rows, v2⟩ (junk 0) (by simp only [Vec.WF]; omega) (by simp only [Vec.WF]; omega) h0).bind
    fun ⟨_, c⟩ _ => ?_
  have hlt : i * m.cols + j < s.1.length := by
    have := flat_lt (r := m.cols) (c := m.cols) hi hj
    unfold Mtx.WF at hc
    rw [hs.1, hs.2] at hc
    omega
  rw [wr_lt _ hlt, ok_bind]
  exact satp ⟨by simp [h1], l1.trans h2, l2.trans h3⟩

/-- C149. `zsl_sta_linear_reg`, for all sizes. -/
theorem sta_linear_reg_safe (x y : Vec R) (c : LinReg R) (hx : x.WF) (hy : y.WF) : (staLinearReg x y c).sat fun _ => True := by
  unfold Vec.WF at hx hy
  unfold staLinearReg
  refine ite_sat (fun _ => by simp) fun hs => ?_
  exact Out.sat.bind (P := fun _ => True) (forN_inv _ trivial fun i hi t _ => by simp; omega) fun _ _ => satp trivial

/-- C149. `zsl_sta_mode`, for non-empty data: nothing outside the buffers is touched, and the size of the output is at most one more than the
number of data. That it is at most the number of data needs the laws of the comparisons, see `sta_mode_size`. -/
theorem sta_mode_safe (junk : ℕ → R) (v w : Vec R) (hv : v.WF) (hw : w.WF) (h0 : 0 < v.sz) :
    (staMode junk v w).sat fun p => p.2.data.length = w.data.length ∧ (p.1 = 0 → p.2.sz ≤ v.sz + 1) := by
  unfold staMode
  refine ite_sat (fun _ => by simp [EINVAL]) fun hs => ?_
  push Not at hs
  rw [if_neg (by omega)]
  refine (vec_init_safe w hw).bind fun ⟨_, w1⟩ l => ?_
  dsimp only at l ⊢
  have hw1 : w1.sz ≤ w1.data.length := l.wf hw
  have hv' : v.sz ≤ v.data.length := hv
  have hl : w1.sz = w.sz := l.1
  refine Out.sat.bind (P := fun s : List R × ℕ => s.1.length = v.sz) ?_ fun ⟨u, mx⟩ hu => ?_
  · refine forN_inv _ (by simp) fun i hi s hs => ?_
    rw [rd_lt (by omega), ok_bind]
    refine (vec_tests_safe v v _ _ hv hv).2.2.bind fun k _ => ?_
    rw [wr_lt _ (by omega), ok_bind]
    exact satp (by simpa using hs)
  dsimp only at hu ⊢
  refine Out.sat.bind (P := fun s : List R × ℕ => s.1.length = v.sz ∧ s.2 ≤ v.sz) ?_ fun ⟨wt, j⟩ ⟨hwt, hj⟩ => ?_
  · refine (forN_sat (fun i (s : List R × ℕ) => s.1.length = v.sz ∧ s.2 ≤ i) (by simp) fun i hi s ⟨h1, h2⟩ => ?_)
    rw [rd_lt (by omega), ok_bind]
    refine ite_sat (fun _ => ?_) fun _ => satp ⟨h1, by omega⟩
    rw [rd_lt (by omega), ok_bind, wr_lt _ (by omega), ok_bind]
    exact satp ⟨by simpa using h1, by simpa using h2⟩
  dsimp only at hwt hj ⊢
  refine Out.sat.bind (P := fun s : List R × ℕ => s.1.length = w1.data.length ∧ s.2 ≤ j) ?_ fun ⟨wd, c⟩ ⟨hwd, hc⟩ => ?_
  · refine (forN_sat (fun i (s : List R × ℕ) => s.1.length = w1.data.length ∧ s.2 ≤ i) (by simp) fun i hi s ⟨h1, h2⟩ => ?_)
    rw [rd_lt (by omega), ok_bind]
    refine ite_sat (fun _ => ?_) fun _ => satp ⟨h1, by omega⟩
    have hwf : (⟨w1.sz, s.1⟩ : Vec R).WF := by
      simp only [Vec.WF]
      omega
    refine (vec_tests_safe _ _ _ _ hwf hwf).2.2.bind fun k _ => ?_
    refine ite_sat (fun _ => ?_) fun _ => satp ⟨h1, by omega⟩
    rw [wr_lt _ (by omega), ok_bind]
    exact satp ⟨by simpa using h1, by simpa using h2⟩
  dsimp only at hwd hc ⊢
  have hwf : (⟨j, wt⟩ : Vec R).WF := by
    simp only [Vec.WF]
    omega
  refine (vec_tests_safe _ _ _ _ hwf hwf).2.2.bind fun z _ => satp ⟨hwd.trans l.2, fun _ => ?_⟩
  dsimp only
  split <;> omega

/-- The comparison of `zsl_vec_contains`. -/
def closeTo (eps a b : R) : Bool := CReal.lt (a - b) eps && CReal.lt (-(a - b)) eps

theorem contains_count (n : ℕ) (d : List R) (a eps : R) (h : n ≤ d.length) :
    (vecContains ⟨n, d⟩ a eps).sat fun k => k = (d.take n).countP fun x => closeTo eps x a := by
  unfold vecContains
  refine forN_sat (fun i k => k = (d.take i).countP fun x => closeTo eps x a) (by simp) fun i hi t ht => ?_
  dsimp only at hi ⊢
  rw [rd_lt (by omega), ok_bind]
  refine satp ?_
  rw [List.take_succ_eq_append_getElem (by omega), List.countP_append, ← ht]
  by_cases hc : closeTo eps d[i] a = true
  · rw [List.countP_singleton, if_pos hc]
    unfold closeTo at hc
    rw [if_pos hc]
  · rw [List.countP_singleton, if_neg hc]
    unfold closeTo at hc
    rw [if_neg hc]
    rfl

/-- C149. `zsl_sta_mode` never reports more modes than there are data: the size of its output stays within the buffer. The only law of the
scalars that is used is that `a` is close to 0 if and only if 0 is close to `a`; IEEE numbers have it, and NaN is close to nothing. -/
theorem sta_mode_size (junk : ℕ → R) (v w : Vec R) (hv : v.WF) (hw : w.WF) (h0 : 0 < v.sz)
    (hsym : ∀ a : R, closeTo (lit 1e-5) a (lit 0) = closeTo (lit 1e-5) (lit 0) a) :
    (staMode junk v w).sat fun p => p.2.data.length = w.data.length ∧ (p.1 = 0 → p.2.sz ≤ v.sz) := by
  unfold staMode
  refine ite_sat (fun _ => by simp [EINVAL]) fun hs => ?_
  push Not at hs
  rw [if_neg (by omega)]
  have hv' : v.sz ≤ v.data.length := hv
  have hw' : w.sz ≤ w.data.length := hw
  refine Out.sat.bind (P := fun p : Int × Vec R => p.2.sz = w.sz ∧ p.2.data.length = w.data.length ∧
    ∀ k, k < w.sz → p.2.data[k]? = some (lit 0)) ?_ fun ⟨_, w1⟩ ⟨hl, hl', hz⟩ => ?_
  · unfold vecInit
    refine Out.sat.bind (P := fun d : List R => d.length = w.data.length ∧ ∀ k, k < w.sz → d[k]? = some (lit 0)) ?_ fun d hd => satp ⟨rfl, hd⟩
    refine forN_sat (fun i (d : List R) => d.length = w.data.length ∧ ∀ k, k < i → d[k]? = some (lit 0)) (by simp) fun i hi d ⟨h1, h2⟩ => ?_
    rw [wr_sat]
    refine ⟨by omega, by simpa using h1, fun k hk => ?_⟩
    rw [List.getElem?_set]
    split
    · rw [if_pos (by omega)]
    · exact h2 k (by omega)
  dsimp only at hl hl' hz ⊢
  refine Out.sat.bind (P := fun s : List R × ℕ => s.1.length = v.sz) ?_ fun ⟨u, mx⟩ hu => ?_
  · refine forN_inv _ (by simp) fun i hi s hs => ?_
    rw [rd_lt (by omega), ok_bind]
    refine (vec_tests_safe v v _ _ hv hv).2.2.bind fun k _ => ?_
    rw [wr_lt _ (by omega), ok_bind]
    exact satp (by simpa using hs)
  dsimp only at hu ⊢
  refine Out.sat.bind (P := fun s : List R × ℕ => s.1.length = v.sz ∧ s.2 ≤ v.sz) ?_ fun ⟨wt, j⟩ ⟨hwt, hj⟩ => ?_
  · refine (forN_sat (fun i (s : List R × ℕ) => s.1.length = v.sz ∧ s.2 ≤ i) (by simp) fun i hi s ⟨h1, h2⟩ => ?_)
    rw [rd_lt (by omega), ok_bind]
    refine ite_sat (fun _ => ?_) fun _ => satp ⟨h1, by omega⟩
    rw [rd_lt (by omega), ok_bind, wr_lt _ (by omega), ok_bind]
    exact satp ⟨by simpa using h1, by simpa using h2⟩
  dsimp only at hwt hj ⊢
  refine Out.sat.bind (P := fun s : List R × ℕ => s.1.length = w1.data.length ∧
    s.2 + ((wt.take j).countP fun x => closeTo (lit 1e-5) x (lit 0)) ≤ j) ?_ fun ⟨wd, c⟩ ⟨hwd, hc⟩ => ?_
  · refine (forN_sat (fun i (s : List R × ℕ) => (s.1.length = w1.data.length ∧ ∀ k, s.2 ≤ k → k < w.sz → s.1[k]? = some (lit 0)) ∧
      s.2 + ((wt.take i).countP fun x => closeTo (lit 1e-5) x (lit 0)) ≤ i) ⟨⟨rfl, fun k _ hk => hz k hk⟩, by simp⟩
      fun i hi s ⟨⟨h1, h2⟩, h3⟩ => ?_).mono fun s h => ⟨h.1.1, h.2⟩
    rw [rd_lt (by omega), ok_bind]
    have hcnt : ((wt.take (i + 1)).countP fun x => closeTo (lit 1e-5) x (lit 0)) =
        ((wt.take i).countP fun x => closeTo (lit 1e-5) x (lit 0)) + if closeTo (lit 1e-5) wt[i] (lit 0) then 1 else 0 := by
      rw [List.take_succ_eq_append_getElem (by omega), List.countP_append, List.countP_singleton]
    have hskip : s.2 + ((wt.take (i + 1)).countP fun x => closeTo (lit 1e-5) x (lit 0)) ≤ i + 1 := by
      rw [hcnt]
      split <;> omega
    refine ite_sat (fun _ => ?_) fun _ => satp ⟨⟨h1, h2⟩, hskip⟩
    refine (contains_count w1.sz s.1 _ _ (by omega)).bind fun k hk => ?_
    refine ite_sat (fun hk0 => ?_) fun _ => satp ⟨⟨h1, h2⟩, hskip⟩
    have hlt : s.2 < w.sz := by omega
    have hlen : s.2 < s.1.length := by omega
    rw [wr_lt _ hlen, ok_bind]
    have hnot : closeTo (lit 1e-5) wt[i] (lit 0) = false := by
      rw [hsym]
      rw [hk0] at hk
      have hcell := h2 s.2 le_rfl hlt
      have := List.countP_eq_zero.1 hk.symm (lit 0) (by
        rw [List.mem_iff_getElem?]
        exact ⟨s.2, by rw [List.getElem?_take, if_pos (by omega), hcell]⟩)
      simpa using this
    refine satp ⟨⟨by simpa using h1, fun k hk hk' => ?_⟩, ?_⟩
    · dsimp only at hk ⊢
      rw [List.getElem?_set_ne (by omega)]
      exact h2 k (by omega) hk'
    · dsimp only
      rw [hcnt, hnot]
      simp only [Bool.false_eq_true, if_false]
      omega
  dsimp only at hwd hc ⊢
  refine (contains_count j wt _ _ (by omega)).bind fun z hz => satp ⟨hwd.trans hl', fun _ => ?_⟩
  dsimp only
  split <;> omega

example (v w : Vec XR) (hv : v.WF) (hw : w.WF) (h0 : 0 < v.sz) (junk : ℕ → XR) :
    (staMode junk v w).sat fun p => p.2.data.length = w.data.length ∧ (p.1 = 0 → p.2.sz ≤ v.sz) := by
  refine sta_mode_size junk v w hv hw h0 fun a => ?_
  unfold closeTo
  cases a with
  | fin a =>
    simp only [XR.lit_eq]
    rw [Bool.and_comm]
    simp
  | nan => rfl
  | pinf => rfl
  | ninf => rfl

theorem regExpand_safe (junk : ℕ → R) (x : Mtx R) (hx : x.WF) : (regExpand junk x).sat fun e => e.Is x.rows (x.cols + 1) := by
  unfold regExpand
  refine (mtx_init_safe _ (Mtx.wf_uninit junk x.rows (x.cols + 1))).1.bind fun ⟨_, e⟩ l => ?_
  have he := l.is (is_uninit junk x.rows (x.cols + 1))
  dsimp only at he ⊢
  refine Out.sat.bind (P := fun a => a.length = x.rows) (forN_inv _ (by simp) fun i hi t ht => by simp; omega) fun a ha => ?_
  refine (mtx_set_col_safe e 0 a he.2.2 (by rw [he.1, ha])).bind fun ⟨_, e1⟩ l1 => ?_
  dsimp only at l1 ⊢
  refine Out.sat.bind (P := fun s : Mtx R × List R => s.1.Is x.rows (x.cols + 1) ∧ s.2.length = x.rows) ?_ fun ⟨e2, _⟩ h => satp h.1
  refine forN_inv _ ⟨l1.is he, ha⟩ fun j hj s ⟨h1, h2⟩ => ?_
  refine (mtx_get_col_safe x j s.2 hx (by omega)).bind fun ⟨_, a⟩ la => ?_
  dsimp only at la ⊢
  refine (mtx_set_col_safe s.1 (j + 1) a h1.2.2 (by rw [h1.1]; omega)).bind fun ⟨_, e3⟩ l3 => ?_
  exact satp ⟨l3.is h1, la.trans h2⟩

theorem regQuality_safe (junk : ℕ → R) (xe bm ym : Mtx R) (y : Vec R) (hx : xe.WF) (hb : bm.WF) (hm : ym.WF) (hy : y.WF) (h1 : xe.rows = y.sz) :
    (regQuality junk xe bm ym y).sat fun _ => True := by
  unfold regQuality
  refine (mult_is junk xe.rows 1 xe bm hx hb).bind fun ⟨_, t⟩ ht => ?_
  dsimp only at ht ⊢
  refine (mtx_add_sub_safe ym t (Mtx.uninit junk xe.rows 1) hm ht.2.2 (Mtx.wf_uninit _ _ _)).2.1.bind fun ⟨_, e⟩ l => ?_
  have he := (l.is (is_uninit junk xe.rows 1)).len
  dsimp only at he ⊢
  refine (sta_mean_safe y (junk 0) hy).bind fun ⟨_, ym⟩ _ => ?_
  dsimp only
  unfold Vec.WF at hy
  exact Out.sat.bind (P := fun _ => True) (forN_inv _ trivial fun i hi t _ => by simp; omega) fun _ _ => satp trivial

/-- C149. `zsl_sta_mult_linear_reg`, for at least one observation and all sizes. -/
theorem sta_mult_linear_reg_safe (junk : ℕ → R) (x : Mtx R) (y b : Vec R) (r : R) (hx : x.WF) (hy : y.WF) (hb : b.WF) (h0 : 0 < x.rows) :
    (staMultLinearReg junk x y b r).sat fun p => b.Like p.2.1 := by
  unfold staMultLinearReg
  refine ite_sat (fun _ => by simp [Vec.Like]) fun hs => ?_
  push Not at hs
  rw [if_neg (by omega)]
  refine (regExpand_safe junk x hx).bind fun xe hxe => ?_
  refine (trans_is junk (x.cols + 1) x.rows xe hxe.2.2 (by rw [hxe.2.1]; omega)).bind fun ⟨_, xt⟩ hxt => ?_
  refine (mult_is junk (x.cols + 1) (x.cols + 1) xt xe hxt.2.2 hxe.2.2).bind fun ⟨_, xx⟩ hxx => ?_
  refine (mtx_deter_safe junk xx (junk 0) hxx.2.2 (by rw [hxx.1, hxx.2.1])).bind fun ⟨_, det⟩ _ => ?_
  dsimp only at hxt hxx ⊢
  refine ite_sat (fun _ => satp (.refl _)) fun _ => ?_
  refine (mtx_inv_safe junk xx (Mtx.uninit junk (x.cols + 1) (x.cols + 1)) hxx.2.2 (Mtx.wf_uninit _ _ _) (by rw [hxx.1]; omega)).bind
    fun ⟨_, xi⟩ li => ?_
  have hxi := li.is (is_uninit junk (x.cols + 1) (x.cols + 1))
  refine (fromArr_is junk y.sz 1 y.data (by simpa [Vec.WF] using hy)).bind fun ⟨_, ym⟩ hym => ?_
  refine (mult_is junk (x.cols + 1) x.rows xi xt hxi.2.2 hxt.2.2).bind fun ⟨_, t⟩ ht => ?_
  refine (mult_is junk (x.cols + 1) 1 t ym ht.2.2 hym.2.2).bind fun ⟨_, bm⟩ hbm => ?_
  have hl := hbm.len
  dsimp only at hym hbm hl ⊢
  refine (vec_from_arr_safe b bm.data hb (by omega)).bind fun ⟨_, b'⟩ lb => ?_
  dsimp only at lb ⊢
  exact (regQuality_safe junk xe bm ym y hxe.2.2 hbm.2.2 hym.2.2 hy (by rw [hxe.1]; exact hs.1)).bind fun _ _ => satp lb

/-- C149. `zsl_sta_weighted_mult_linear_reg`, for at least one observation and all sizes. -/
theorem sta_weighted_reg_safe (junk : ℕ → R) (x : Mtx R) (y w b : Vec R) (r : R) (hx : x.WF) (hy : y.WF) (hw : w.WF) (hb : b.WF) (h0 : 0 < x.rows) :
    (staWeightedMultLinearReg junk x y w b r).sat fun p => w.Like p.2.1 ∧ b.Like p.2.2.1 := by
  unfold staWeightedMultLinearReg
  refine ite_sat (fun _ => by simp [Vec.Like]) fun hs => ?_
  push Not at hs
  have hw' : w.sz ≤ w.data.length := hw
  refine Out.sat.bind (P := fun _ => True) ?_ ?_
  · refine (forRet_inv (fun _ => True) (fun _ => True) trivial fun i hi t _ => ?_).mono (by simp)
    rw [rd_lt (by omega), ok_bind]
    exact ite_sat (fun _ => satp trivial) fun _ => satp trivial
  rintro (_ | _) _
  swap
  · exact satp ⟨.refl _, .refl _⟩
  dsimp only
  rw [if_neg (by omega)]
  refine (mtx_init_safe _ (Mtx.wf_uninit junk w.sz w.sz)).2.2.1.bind fun ⟨_, id⟩ l => ?_
  have hid := l.is (is_uninit junk w.sz w.sz)
  dsimp only at hid ⊢
  refine Out.sat.bind (P := fun s : List R × Mtx R => s.1.length = w.data.length ∧ s.2.Is w.sz w.sz) ?_ fun ⟨wd, id⟩ ⟨hwd, hid⟩ => ?_
  · refine forN_inv _ ⟨rfl, hid⟩ fun k hk s ⟨h1, h2⟩ => ?_
    rw [rd_lt (by omega), ok_bind, wr_lt _ (by omega), ok_bind, rd_lt (by simp; omega), ok_bind]
    refine (mtx_scalar_mult_row_safe s.2 k _ h2.2.2).bind fun ⟨_, id⟩ li => satp ⟨by simpa using h1, li.is h2⟩
  dsimp only at hwd hid ⊢
  have lw : w.Like { w with data := wd } := ⟨rfl, hwd⟩
  refine (regExpand_safe junk x hx).bind fun xe hxe => ?_
  refine (trans_is junk (x.cols + 1) x.rows xe hxe.2.2 (by rw [hxe.2.1]; omega)).bind fun ⟨_, xt⟩ hxt => ?_
  refine (mult_is junk (x.cols + 1) x.rows xt id hxt.2.2 hid.2.2).bind fun ⟨_, xw⟩ hxw => ?_
  refine (mult_is junk (x.cols + 1) (x.cols + 1) xw xe hxw.2.2 hxe.2.2).bind fun ⟨_, xx⟩ hxx => ?_
  refine (mtx_deter_safe junk xx (junk 0) hxx.2.2 (by rw [hxx.1, hxx.2.1])).bind fun ⟨_, det⟩ _ => ?_
  dsimp only at hxt hxw hxx ⊢
  refine ite_sat (fun _ => satp ⟨lw, .refl _⟩) fun _ => ?_
  refine (mtx_inv_safe junk xx (Mtx.uninit junk (x.cols + 1) (x.cols + 1)) hxx.2.2 (Mtx.wf_uninit _ _ _) (by rw [hxx.1]; omega)).bind
    fun ⟨_, xi⟩ li => ?_
  have hxi := li.is (is_uninit junk (x.cols + 1) (x.cols + 1))
  refine (fromArr_is junk y.sz 1 y.data (by simpa [Vec.WF] using hy)).bind fun ⟨_, ym⟩ hym => ?_
  refine (mult_is junk (x.cols + 1) x.rows xi xw hxi.2.2 hxw.2.2).bind fun ⟨_, t⟩ ht => ?_
  refine (mult_is junk (x.cols + 1) 1 t ym ht.2.2 hym.2.2).bind fun ⟨_, bm⟩ hbm => ?_
  have hl := hbm.len
  dsimp only at hym hbm hl ⊢
  refine (vec_from_arr_safe b bm.data hb (by omega)).bind fun ⟨_, b'⟩ lb => ?_
  dsimp only at lb ⊢
  exact (regQuality_safe junk xe bm ym y hxe.2.2 hbm.2.2 hym.2.2 hy (by rw [hxe.1]; exact hs.1)).bind fun _ _ => satp ⟨lw, lb⟩

theorem quadRow_safe (mv xv : List R) (h1 : mv.length = 3) (h2 : xv.length = 9) : (quadRow mv xv).sat fun x => x.length = 9 := by
  unfold quadRow
  simp [h1, h2]

/-- C149. `zsl_sta_quad_fit`, for at least one point and all shapes. -/
theorem sta_quad_fit_safe (junk : ℕ → R) (m : Mtx R) (b : Vec R) (hm : m.WF) (hb : b.WF) (h0 : 0 < m.rows) :
    (staQuadFit junk m b).sat fun p => b.Like p.2 := by
  unfold staQuadFit
  refine ite_sat (fun _ => by simp [Vec.Like]) fun hs => ?_
  push Not at hs
  rw [if_neg (by omega)]
  refine Out.sat.bind (P := fun s : Mtx R × List R × List R × List R => s.1.Is m.rows 9 ∧ s.2.1.length = m.rows ∧ s.2.2.1.length = 3 ∧
    s.2.2.2.length = 9) ?_ fun ⟨x, y, _, _⟩ ⟨hx, hy, _, _⟩ => ?_
  · refine forN_inv _ ⟨is_uninit junk m.rows 9, by simp, by simp, by simp⟩ fun i hi s ⟨h1, h2, h3, h4⟩ => ?_
    refine (mtx_get_row_safe m i s.2.2.1 hm (by omega)).bind fun ⟨_, mv⟩ l1 => ?_
    dsimp only at l1 ⊢
    refine (quadRow_safe mv s.2.2.2 (by omega) h4).bind fun xv hxv => ?_
    refine (mtx_set_row_safe s.1 i xv h1.2.2 (by rw [h1.2.1]; omega)).bind fun ⟨_, x⟩ lx => ?_
    dsimp only
    rw [wr_lt _ (by omega), ok_bind]
    exact satp ⟨lx.is h1, by simpa using h2, l1.trans h3, hxv⟩
  dsimp only at hx hy ⊢
  refine (trans_is junk 9 m.rows x hx.2.2 (by rw [hx.2.1]; omega)).bind fun ⟨_, xt⟩ hxt => ?_
  refine (mult_is junk 9 9 xt x hxt.2.2 hx.2.2).bind fun ⟨_, xx⟩ hxx => ?_
  refine (mtx_inv_safe junk xx (Mtx.uninit junk 9 9) hxx.2.2 (Mtx.wf_uninit _ _ _) (by rw [hxx.1]; omega)).bind fun ⟨_, xi⟩ li => ?_
  have hxi := li.is (is_uninit junk 9 9)
  refine (mult_is junk 9 m.rows xi xt hxi.2.2 hxt.2.2).bind fun ⟨_, t⟩ ht => ?_
  refine (mult_is junk 9 1 t ⟨m.rows, 1, y⟩ ht.2.2 (by simp only [Mtx.WF]; omega)).bind fun ⟨_, bt⟩ hbt => ?_
  have hl := hbt.len
  dsimp only at hl ⊢
  exact (vec_from_arr_safe b bt.data hb (by omega)).bind fun ⟨_, b'⟩ lb => satp lb

/-- C149. `zsl_prob_entropy`. -/
theorem prob_entropy_safe (v : Vec R) (e : R) (h : v.WF) : (probEntropy v e).sat fun _ => True := by
  unfold Vec.WF at h
  unfold probEntropy
  refine Out.sat.bind (P := fun _ => True) ?_ ?_
  · refine (forRet_inv (fun _ => True) (fun _ => True) trivial fun i hi t _ => ?_).mono (by simp)
    rw [rd_lt (by omega), ok_bind]
    exact ite_sat (fun _ => satp trivial) fun _ => satp trivial
  rintro (_ | _) _
  · dsimp only
    refine ite_sat (fun _ => satp trivial) fun _ => ?_
    exact Out.sat.bind (P := fun _ => True) (forN_inv _ trivial fun i hi t _ => by simp; omega) fun _ _ => satp trivial
  · exact satp trivial

end Verif
