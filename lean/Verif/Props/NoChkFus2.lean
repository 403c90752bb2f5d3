import Verif.Props.NoChkFus
import Verif.Props.FusConv
import Verif.Props.Kalman2
import Verif.Props.Safe9

/-!
# Builds without bounds checks: calls of the fusion filters that are accepted
-/

namespace Verif

open Quaternion Out

/-! Each of the theorems of `Props/NoChkFus.lean` applied to a call that succeeds: the unchecked build computes the same. -/

example (junk : ℕ → XR) : ∃ s c q', NoChk.fusMahnFeed junk 100 (optFin (some 60)) (Reading.sens ⟨some ![1, 2, 9], some ![3, 4, 5], ![1, 1, 1]⟩)
    (MahnSet.cfg ⟨0.1, 0.2, 1, 0⟩) (quat 1) = ok (0, s, c, quat q') :=
  ⟨_, _, _, nochk_fus_mahn_feed _ _ _ _ _ _ _
    (mahn_feed_correct _ (by norm_num) _ _ (by norm_num) (by norm_num) 1 (by norm_num) _ _ _ (lt_len (by simp; norm_num)))⟩

example (junk : ℕ → XR) : ∃ q', NoChk.fusCompFeed junk 100 (XR.fin 0.1) (Reading.sens ⟨some ![1, 2, 9], some ![3, 4, 5], ![1, 1, 1]⟩) (quat 1) =
    ok (0, quat q') :=
  ⟨_, nochk_fus_comp_feed _ _ _ _ _ _
    (comp_feed_correct _ (by norm_num) _ (by norm_num) (by norm_num) 1 (by norm_num) _ _ _ (lt_len (by simp; norm_num)) (lt_len (by simp; norm_num)))⟩

example (junk : ℕ → XR) : ∃ s q', NoChk.fusAquaFeed junk 100 true (AquaR.cfg ⟨1, 1, 0.9, 0.9⟩) (Reading.sens ⟨some ![1, 0, 0], none, 0⟩) (quat 1) =
    ok (0, s, AquaR.cfg ⟨1, 1, 0.9, 0.9⟩, quat q', true) := by
  obtain ⟨s, q', h, _⟩ := aqua_full_gain_acc junk (f := 100) (by norm_num) (c := ⟨1, 1, 0.9, 0.9⟩)
    ⟨by norm_num, by norm_num, by norm_num, by norm_num⟩ rfl 1 (by norm_num) ![1, 0, 0] 0 none (by rw [len_north]; norm_num)
    (by simp) (by
      rw [aquaGyro_rest, seen_one len_north]
      intro h
      have := congrFun h 0
      simp [up] at this)
  exact ⟨s, q', nochk_fus_aqua_feed _ _ _ _ _ _ _ h⟩

example (junk : ℕ → XR) : ∃ s' q', NoChk.fusMadgFeed junk 100 (optFin (some 60)) (XR.fin 0.1)
    (Reading.sens ⟨some ![1, 2, 9], some ![3, 4, 5], ![1, 1, 1]⟩) (quat 1) = ok (0, s', quat q') :=
  ⟨_, _, nochk_fus_madg_feed _ _ _ _ _ _ _
    (madg_feed_correct _ (by norm_num) _ _ (by norm_num) 1 (by norm_num) _ _ _ (lt_len (by simp; norm_num)))⟩

example (junk : ℕ → XR) : ∃ s', NoChk.fusSaamFeed junk (Reading.sens ⟨some ![0, 0, 9.81], some up, 0⟩) (quat 1) = ok (0, s', quat 0) := by
  obtain ⟨s', h⟩ := saam_level_zero junk 9.81 (by norm_num) up 0 (by rw [len_up]; norm_num) (quat 1)
  exact ⟨s', nochk_fus_saam_feed _ _ _ _ h⟩

example (junk : ℕ → XR) (x : KalmIn) (hf : 0 < x.freq) (hG : 0 ≤ x.varG) (hA : 0 ≤ x.varA) (hM : 0 ≤ x.varM) :
    ∃ C : Matrix (Fin 6) (Fin 6) ℝ, NoChk.fusKalmFeed junk x.freq (optFin x.incl) x.sens (x.cfg 1 []) (quat 1) true =
      ok (0, x.after.sens, x.cfg (x.post 1 1 C) [], quat (x.attPost 1 1 C), true) := by
  obtain ⟨C, _, h⟩ := kalm_feed_correct junk x hf hG hA hM 1 [] 1
  exact ⟨C, nochk_fus_kalm_feed_partial _ _ _ _ _ _ _ rfl rfl _ h⟩

theorem bind_ub {α β : Type} {x : Out α} {g : α → Out β} (h : ∀ a, x = ok a → g a = ub) : x >>= g = ub := by
  cases x with
  | ok a => exact h a rfl
  | ub => rfl

theorem forN_last_ub {σ : Type} {n : ℕ} {g : ℕ → σ → Out σ} {s : σ} (h : ∀ t, g n t = ub) : forN (n + 1) g s = ub :=
  bind_ub fun t _ => h t

/-- Without checks, the product of a matrix of four rows and columns with a 3 × 3 matrix reads behind the end of the latter. -/
theorem mult_4_3_ub (F : Mtx XR) (hF : F.rows = 4 ∧ F.cols = 4) (d : List XR) (hd : d.length = 9) (D : Mtx XR) :
    NoChk.mtxMult F ⟨3, 3, d⟩ D = ub := by
  unfold NoChk.mtxMult
  refine bind_ub fun ⟨_, a⟩ ha => ?_
  refine bind_ub fun ⟨_, b⟩ hb => ?_
  dsimp only
  unfold NoChk.mtxCopy at ha hb
  obtain ⟨da, -, ha⟩ := NoChkL.bind_ok ha
  obtain ⟨db, hl, hb⟩ := NoChkL.bind_ok hb
  cases ha
  cases hb
  dsimp only
  rw [hF.1, hF.2]
  have hl : db.length = 9 := by
    obtain ⟨e, he, h9⟩ := memcpyAt_safe (dst := List.replicate (3 * 3) (lit 0 : XR)) (src := d) (doff := 0) (soff := 0) (n := 3 * 3) (by simp)
      (by rw [hd])
    rw [he] at hl
    cases hl
    rw [h9]
    simp
  refine bind_ub fun t ht => ?_
  exfalso
  have : ∀ s : List XR, forN 4 (fun i d => forN 3 (fun j d => do
      let d ← wr d (j + i * 3) (lit 0)
      forN 4 (fun k d => do
        let acc ← rd d (j + i * 3)
        let x ← rd da (k + i * 4)
        let y ← rd db (j + k * 3)
        wr d (j + i * 3) (acc + x * y)) d) d) s = ub := by
    intro s
    refine forN_last_ub fun t => forN_last_ub fun t => bind_ub fun t _ => forN_last_ub fun t => bind_ub fun _ _ => bind_ub fun _ _ => ?_
    rw [rd_ge (by omega)]
    rfl
  rw [this] at ht
  cases ht

/-- C147, negation for `zsl_fus_kalm_feed`: the shape of the covariance is not checked. A 3 × 3 covariance is accepted with bounds checks, because
the codes of the matrix functions are dropped; without them the product reads behind its buffer. -/
theorem nochk_kalm_feed_fails (junk : ℕ → XR) (f : ℕ) (incl : Option XR) (q : Quat XR) :
    ∃ (s : Sens3 XR) (c : KalmCfg XR), s.WF ∧ c.P.WF ∧ (∃ out, fusKalmFeed junk f incl s c q true = ok (0, out)) ∧
      NoChk.fusKalmFeed junk f incl s c q true = ub := by
  have hw : ∀ x y z : XR, ∀ v ∈ some (⟨3, [x, y, z]⟩ : Vec XR), v.WF := by
    rintro x y z v ⟨⟩
    exact wf_lit3 _ _ _
  refine ⟨⟨some ⟨3, [XR.fin 0, XR.fin 0, XR.fin 1]⟩, some ⟨3, [XR.fin 1, XR.fin 0, XR.fin 0]⟩, some ⟨3, [XR.fin 0, XR.fin 0, XR.fin 0]⟩⟩,
    ⟨XR.fin 1, XR.fin 1, XR.fin 1, ⟨3, 3, List.replicate 9 (XR.fin 1)⟩⟩, ⟨hw _ _ _, hw _ _ _, hw _ _ _⟩, by simp [Mtx.WF], ?_, ?_⟩
  · obtain ⟨⟨rc, out⟩, h, -, -, h0⟩ := kalm_feed_safe junk f incl
      ⟨some ⟨3, [XR.fin 0, XR.fin 0, XR.fin 1]⟩, some ⟨3, [XR.fin 1, XR.fin 0, XR.fin 0]⟩, some ⟨3, [XR.fin 0, XR.fin 0, XR.fin 0]⟩⟩
      ⟨XR.fin 1, XR.fin 1, XR.fin 1, ⟨3, 3, List.replicate 9 (XR.fin 1)⟩⟩ q true ⟨hw _ _ _, hw _ _ _, hw _ _ _⟩ (by simp [Mtx.WF])
    have h0 := h0 ⟨_, _, _, rfl, rfl, rfl, rfl⟩ (by simp [XR.lit_eq])
    dsimp only at h0
    subst h0
    exact ⟨out, h⟩
  · unfold NoChk.fusKalmFeed
    rw [if_neg (by simp [XR.lit_eq]), if_pos rfl]
    refine bind_ub fun _ h => ?_
    exfalso
    unfold NoChk.fusKalman at h
    dsimp only at h
    have : ∀ g : Vec XR, NoChk.kalmPredict junk f (XR.fin 1) g ⟨3, 3, List.replicate 9 (XR.fin 1)⟩ q = ub := by
      intro g
      unfold NoChk.kalmPredict
      refine bind_ub fun _ _ => bind_ub fun _ _ => bind_ub fun _ _ => bind_ub fun ⟨_, F⟩ hF => bind_ub fun _ _ => bind_ub fun _ _ =>
        bind_ub fun _ _ => bind_ub fun _ _ => bind_ub fun _ _ => ?_
      rw [mult_4_3_ub F (NoChkL.shp_fromArr (NoChkL.shp_self _) hF) _ (by simp)]
      rfl
    rw [this] at h
    cases h

end Verif
