import Mathlib.Algebra.Order.BigOperators.Group.Finset
import Mathlib.Algebra.Order.BigOperators.Group.List
import Verif.Props.Color1

/-!
# Spectra (C70, C71), luminous efficiency (C73) and black bodies (C100)
-/

namespace Verif

open Out XR Matrix

/-! ### The observer tables -/

theorem obs_length (obs : Obs) : (clrObsGet obs).length = 95 := by
  cases obs <;> decide +kernel

theorem obs_row_sign (obs : Obs) : ∀ row ∈ clrObsGet obs, 0 ≤ row.1 ∧ 0 < row.2.1 ∧ 0 ≤ row.2.2 := by
  cases obs <;> decide +kernel

theorem getD_lt {α : Type} {l : List α} {i : ℕ} (h : i < l.length) {d : α} : l.getD i d = l[i] := by
  simp [List.getD, h]

theorem cmf_idx {nm : ℕ} (h : 360 ≤ nm ∧ nm ≤ 830) (obs : Obs) : (nm - 360) / 5 < (clrObsGet obs).length := by
  rw [obs_length]
  omega

theorem cmf_rd (obs : Obs) {nm : ℕ} (h : 360 ≤ nm ∧ nm ≤ 830) :
    ∃ row, rd (clrObsGet obs) ((nm - 360) / 5) = ok row ∧ cmf obs nm = ((row.1 : ℝ), (row.2.1 : ℝ), (row.2.2 : ℝ)) := by
  refine ⟨_, rd_lt (cmf_idx h obs), ?_⟩
  unfold cmf
  rw [getD_lt (cmf_idx h obs)]

theorem cmf_sign (obs : Obs) {nm : ℕ} (h : 360 ≤ nm ∧ nm ≤ 830) :
    0 ≤ (cmf obs nm).1 ∧ 0 < (cmf obs nm).2.1 ∧ 0 ≤ (cmf obs nm).2.2 := by
  have hm := obs_row_sign obs _ (List.getElem_mem (cmf_idx h obs))
  unfold cmf
  rw [getD_lt (cmf_idx h obs)]
  simp only
  exact_mod_cast hm

/-! ### Spectrum to tristimulus (C70) -/

theorem usable_take_succ {l : List (ℕ × ℝ)} {i : ℕ} (hi : i < l.length) :
    usable (l.take (i + 1)) = usable (l.take i) ++ if 360 ≤ l[i].1 ∧ l[i].1 ≤ 830 then [l[i]] else [] := by
  unfold usable
  rw [List.take_succ_eq_append_getElem hi, List.filter_append]
  congr 1
  by_cases h : 360 ≤ l[i].1 ∧ l[i].1 ≤ 830 <;> simp [h]

theorem spd_rd (l : List (ℕ × ℝ)) (t : List (ℕ × XR)) {i : ℕ} (hi : i < l.length) :
    rd (Spd.emb l t).comps i = ok (l[i].1, fin l[i].2) := by
  refine rd_of ?_
  show (l.map (fun c => (c.1, fin c.2)) ++ t)[i]? = _
  rw [List.getElem?_append_left (by simpa using hi), List.getElem?_map, List.getElem?_eq_getElem hi]
  rfl

/-- What the code computes for every spectrum, before the divisions are looked at. -/
theorem clrSpdXyz_eq (l : List (ℕ × ℝ)) (t : List (ℕ × XR)) (obs : Obs) :
    clrSpdXyz (Spd.emb l t) obs =
      if usable l = [] then ok (-EINVAL, ⟨fin 0, fin 0, fin 0, .deg2, .A, true, true, true⟩)
      else ok (0, ⟨fin (response obs (·.1) l / (usable l).length) / fin (response obs (·.2.1) l / (usable l).length), fin 1,
        fin (response obs (·.2.2) l / (usable l).length) / fin (response obs (·.2.1) l / (usable l).length), obs, .A,
        false, false, false⟩) := by
  unfold clrSpdXyz
  by_cases hl : l = []
  · subst hl
    refine Eq.trans (if_pos (by show 0 < 1; omega)) ?_
    simp [usable]
  · have hpos : 0 < l.length := List.length_pos_iff.mpr hl
    refine Eq.trans (if_neg (by show ¬ l.length < 1; omega)) ?_
    have hloop := forN_eq (n := (Spd.emb l t).size)
      (f := fun i (s : Xyz XR × ℕ) => (do
        let c ← rd (Spd.emb l t).comps i
        if c.1 > 359 ∧ c.1 < 831 then do
          let row ← rd (clrObsGet obs) ((c.1 - 360) / 5)
          return ({ s.1 with x := s.1.x + c.2 * lit row.1, y := s.1.y + c.2 * lit row.2.1, z := s.1.z + c.2 * lit row.2.2 },
            s.2 + 1)
        else return (s.1, s.2) : Out (Xyz XR × ℕ)))
      (s := (⟨lit 0, lit 0, lit 0, .deg2, .A, false, false, false⟩, 0))
      (fun i => (⟨fin (response obs (·.1) (l.take i)), fin (response obs (·.2.1) (l.take i)),
        fin (response obs (·.2.2) (l.take i)), .deg2, .A, false, false, false⟩, (usable (l.take i)).length))
      (by simp [response, usable]) (by
        intro i hi
        rw [spd_rd l t hi, ok_bind]
        by_cases h : 360 ≤ l[i].1 ∧ l[i].1 ≤ 830
        · obtain ⟨row, hr, hc⟩ := cmf_rd obs h
          refine Eq.trans (if_pos (by simp only; omega)) ?_
          simp only [hr, ok_bind, pure_eq, lit_eq, fin_mul, fin_add]
          simp only [response, usable_take_succ hi, if_pos h, List.map_append, List.sum_append, List.map_cons, List.map_nil,
            List.sum_cons, List.sum_nil, add_zero, hc, List.length_append, List.length_cons, List.length_nil, zero_add]
        · refine Eq.trans (if_neg (by simp only; omega)) ?_
          simp only [response, usable_take_succ hi, if_neg h, List.append_nil, pure_eq])
    refine Eq.trans (congrArg (fun x => x >>= _) hloop) ?_
    simp only [ok_bind, show (Spd.emb l t).size = l.length from rfl, List.take_length]
    by_cases hu : usable l = []
    · rw [if_pos hu]
      refine Eq.trans (if_pos (by rw [hu]; rfl)) ?_
      simp [response, hu]
    · rw [if_neg hu]
      have hlen : (usable l).length ≠ 0 := fun e => hu (List.length_eq_zero_iff.mp e)
      have hlen' : ((usable l).length : ℝ) ≠ 0 := by exact_mod_cast hlen
      refine Eq.trans (if_neg hlen) ?_
      simp only [XR.ofNat_eq, fin_div hlen', lit_eq, Rat.cast_one, pure_eq]

/-- C70. `zsl_clr_conv_spd_xyz`: X and Z are the responses relative to that of Y, and Y is 1. Samples outside 360..830 nm do not
count, and no table is read out of bounds. -/
theorem spd_xyz_correct (l : List (ℕ × ℝ)) (t : List (ℕ × XR)) (obs : Obs) (h : response obs (·.2.1) l ≠ 0) :
    clrSpdXyz (Spd.emb l t) obs = ok (0, Xyz.emb ⟨response obs (·.1) l / response obs (·.2.1) l, 1,
      response obs (·.2.2) l / response obs (·.2.1) l, obs, .A, false, false, false⟩) := by
  have hu : usable l ≠ [] := fun e => h (by simp [response, e])
  have hlen : ((usable l).length : ℝ) ≠ 0 := by exact_mod_cast fun e => hu (List.length_eq_zero_iff.mp e)
  rw [clrSpdXyz_eq, if_neg hu, fin_div (div_ne_zero h hlen), fin_div (div_ne_zero h hlen), div_div_div_cancel_right₀ hlen,
    div_div_div_cancel_right₀ hlen]
  rfl

theorem sum_map_pos {α : Type} (l : List α) (f : α → ℝ) (h0 : ∀ c ∈ l, 0 ≤ f c) (h1 : ∃ c ∈ l, 0 < f c) : 0 < (l.map f).sum := by
  induction l with
  | nil => simp at h1
  | cons a l ih =>
    rw [List.map_cons, List.sum_cons]
    have hl : 0 ≤ (l.map f).sum := List.sum_nonneg (by
      intro x hx
      obtain ⟨c, hc, rfl⟩ := List.mem_map.mp hx
      exact h0 c (List.mem_cons_of_mem _ hc))
    obtain ⟨c, hc, hp⟩ := h1
    rcases List.mem_cons.mp hc with rfl | hc
    · exact add_pos_of_pos_of_nonneg hp hl
    · exact add_pos_of_nonneg_of_pos (h0 a List.mem_cons_self) (ih (fun d hd => h0 d (List.mem_cons_of_mem _ hd)) ⟨c, hc, hp⟩)

theorem mem_usable {l : List (ℕ × ℝ)} {c : ℕ × ℝ} : c ∈ usable l ↔ c ∈ l ∧ 360 ≤ c.1 ∧ c.1 ≤ 830 := by
  simp [usable]

/-- C70. A spectrum of values that are not negative, one of which is positive and usable, has a positive response in every observer:
the hypothesis of `spd_xyz_correct` holds for every real light. -/
theorem response_pos (l : List (ℕ × ℝ)) (obs : Obs) (h0 : ∀ c ∈ l, 0 ≤ c.2)
    (h1 : ∃ c ∈ l, 360 ≤ c.1 ∧ c.1 ≤ 830 ∧ 0 < c.2) : 0 < response obs (·.2.1) l := by
  obtain ⟨c, hc, h2, h3, hp⟩ := h1
  refine sum_map_pos _ _ (fun d hd => ?_) ⟨c, mem_usable.mpr ⟨hc, h2, h3⟩, mul_pos hp (cmf_sign obs ⟨h2, h3⟩).2.1⟩
  rw [mem_usable] at hd
  exact mul_nonneg (h0 d hd.1) (cmf_sign obs hd.2).2.1.le

/-- C70. A spectrum with no sample between 360 and 830 nm (in particular an empty one) is rejected and every component is flagged. -/
theorem spd_xyz_rejects (l : List (ℕ × ℝ)) (t : List (ℕ × XR)) (obs : Obs) (h : ∀ c ∈ l, c.1 < 360 ∨ 830 < c.1) :
    clrSpdXyz (Spd.emb l t) obs = ok (-EINVAL, ⟨fin 0, fin 0, fin 0, .deg2, .A, true, true, true⟩) := by
  rw [clrSpdXyz_eq, if_pos]
  unfold usable
  rw [List.filter_eq_nil_iff]
  intro c hc
  have := h c hc
  simp only [decide_eq_true_eq]
  omega

/-- C70. Scaling a spectrum does not change its tristimulus. -/
theorem spd_xyz_scale (l : List (ℕ × ℝ)) (t t' : List (ℕ × XR)) (obs : Obs) (k : ℝ) (hk : k ≠ 0) (h : response obs (·.2.1) l ≠ 0) :
    clrSpdXyz (Spd.emb (l.map fun c => (c.1, k * c.2)) t) obs = clrSpdXyz (Spd.emb l t') obs := by
  have hs : ∀ f : ℝ × ℝ × ℝ → ℝ, response obs f (l.map fun c => (c.1, k * c.2)) = k * response obs f l := by
    intro f
    unfold response usable
    rw [List.filter_map, List.map_map, ← List.sum_map_mul_left]
    congr 1
    refine List.map_congr_left fun c _ => ?_
    simp only [Function.comp]
    ring
  rw [spd_xyz_correct l t' obs h, spd_xyz_correct _ t obs (by rw [hs]; exact mul_ne_zero hk h)]
  simp only [hs, mul_div_mul_left _ _ hk]

/-- C70. A dark spectrum (every value zero) is accepted: the conversion reports success, flags nothing, and X and Z are not
numbers. -/
theorem spd_xyz_dark (obs : Obs) (nm : ℕ) (h : 360 ≤ nm ∧ nm ≤ 830) :
    clrSpdXyz (Spd.emb [(nm, 0)] []) obs = ok (0, ⟨XR.nan, fin 1, XR.nan, obs, .A, false, false, false⟩) := by
  have hu : usable [(nm, (0 : ℝ))] = [(nm, 0)] := by simp [usable, h]
  rw [clrSpdXyz_eq, if_neg (by simp [hu])]
  simp [response, hu, fin_div_zero, infOf]

/-- The spectrum of a line at 555 nm meets the hypotheses. -/
example (obs : Obs) : response obs (·.2.1) [(200, 3), (555, 1)] ≠ 0 :=
  (response_pos _ obs (by simp) ⟨(555, 1), by simp, by norm_num⟩).ne'

/-! ### Normalisation of spectra (C71) -/

theorem norm_max (l : List (ℕ × ℝ)) (t : List (ℕ × XR)) :
    ∃ M : ℝ, (∀ c ∈ l, c.2 ≤ M) ∧ 0 ≤ M ∧ (M = 0 ∨ ∃ c ∈ l, c.2 = M) ∧
      forN (Spd.emb l t).size (fun i (max : XR) => (do
        let c ← rd (Spd.emb l t).comps i
        if CReal.lt max c.2 then return c.2 else return max : Out XR)) (lit 0) = ok (fin M) := by
  have := forN_sat (n := (Spd.emb l t).size) (f := fun i (max : XR) => (do
      let c ← rd (Spd.emb l t).comps i
      if CReal.lt max c.2 then return c.2 else return max : Out XR)) (s := lit 0)
    (fun i m => ∃ M : ℝ, m = fin M ∧ (∀ c ∈ l.take i, c.2 ≤ M) ∧ 0 ≤ M ∧ (M = 0 ∨ ∃ c ∈ l.take i, c.2 = M))
    ⟨0, by simp, by simp, le_rfl, Or.inl rfl⟩ (by
      rintro i hi _ ⟨M, rfl, h1, h2, h3⟩
      have hi : i < l.length := hi
      rw [spd_rd l t hi, ok_bind]
      simp only
      by_cases hlt : M < l[i].2
      · rw [if_pos (by simpa using hlt)]
        refine (sat_ok _ _).mpr ⟨l[i].2, rfl, ?_, h2.trans hlt.le, Or.inr ⟨l[i], ?_, rfl⟩⟩
        · intro c hc
          rw [List.take_succ_eq_append_getElem hi, List.mem_append, List.mem_singleton] at hc
          rcases hc with hc | rfl
          · exact (h1 c hc).trans hlt.le
          · exact le_rfl
        · rw [List.take_succ_eq_append_getElem hi]
          exact List.mem_append_right _ (List.mem_singleton.mpr rfl)
      · rw [if_neg (by simpa using hlt)]
        push Not at hlt
        refine (sat_ok _ _).mpr ⟨M, rfl, ?_, h2, ?_⟩
        · intro c hc
          rw [List.take_succ_eq_append_getElem hi, List.mem_append, List.mem_singleton] at hc
          rcases hc with hc | rfl
          · exact h1 c hc
          · exact hlt
        · rcases h3 with h3 | ⟨c, hc, h3⟩
          · exact Or.inl h3
          · exact Or.inr ⟨c, by rw [List.take_succ_eq_append_getElem hi]; exact List.mem_append_left _ hc, h3⟩)
  obtain ⟨m, hm, M, rfl, h1, h2, h3⟩ := this
  rw [show (Spd.emb l t).size = l.length from rfl, List.take_length] at h1 h3
  exact ⟨M, h1, h2, h3, hm⟩

/-- C71. `zsl_clr_norm_spd`: if some value is positive, every value is divided by the largest one, `M`. The wavelengths and the
memory behind the spectrum stay as they are. -/
theorem norm_spd_correct (l : List (ℕ × ℝ)) (t : List (ℕ × XR)) (h : ∃ c ∈ l, 0 < c.2) :
    ∃ M : ℝ, 0 < M ∧ (∃ c ∈ l, c.2 = M) ∧ (∀ c ∈ l, c.2 ≤ M) ∧
      clrNormSpd (Spd.emb l t) = ok (0, Spd.emb (l.map fun c => (c.1, c.2 / M)) t) := by
  obtain ⟨M, h1, h2, h3, hm⟩ := norm_max l t
  obtain ⟨c, hc, hp⟩ := h
  have hM : 0 < M := hp.trans_le (h1 c hc)
  refine ⟨M, hM, ?_, h1, ?_⟩
  · rcases h3 with h3 | h3
    · exact absurd h3 hM.ne'
    · exact h3
  unfold clrNormSpd
  refine Eq.trans (congrArg (fun x => x >>= _) hm) ?_
  rw [ok_bind]
  refine Eq.trans (if_neg (by simp [hM.ne'])) ?_
  have hfill := forN_fill (n := l.length) (d := (Spd.emb l t).comps)
    (f := fun i d => (do
      let c ← rd d i
      wr d i (c.1, c.2 / fin M) : Out (List (ℕ × XR))))
    (fun i => ((l.getD i (0, 0)).1, fin ((l.getD i (0, 0)).2 / M))) (by simp [Spd.emb]) (by
      intro i hi
      have : rd ((List.range i).map (fun i => ((l.getD i (0, 0)).1, fin ((l.getD i (0, 0)).2 / M))) ++ (Spd.emb l t).comps.drop i) i =
          ok (l[i].1, fin l[i].2) := by
        refine rd_of ?_
        rw [List.getElem?_append_right (by simp), List.length_map, List.length_range, Nat.sub_self, List.getElem?_drop, Nat.add_zero]
        exact rd_ok_iff.mp (spd_rd l t hi)
      simp only [this, ok_bind, fin_div hM.ne', getD_lt hi])
  refine Eq.trans (congrArg (fun x => x >>= _) hfill) ?_
  rw [ok_bind, pure_eq]
  have e1 : (Spd.emb l t).comps.drop l.length = t := by
    simp [Spd.emb]
  have e2 : (List.range l.length).map (fun i => ((l.getD i (0, 0)).1, fin ((l.getD i (0, 0)).2 / M))) =
      (l.map fun c => (c.1, c.2 / M)).map fun c => (c.1, fin c.2) := by
    rw [List.map_map]
    refine List.ext_getElem (by simp) fun i h1 h2 => ?_
    have hi : i < l.length := by simpa using h1
    simp [hi]
  rw [e1, e2]
  simp [Spd.emb]

/-- C71. The largest value becomes exactly 1 and no value exceeds it. -/
theorem norm_spd_max (l : List (ℕ × ℝ)) (t : List (ℕ × XR)) (h : ∃ c ∈ l, 0 < c.2) :
    ∃ l', clrNormSpd (Spd.emb l t) = ok (0, Spd.emb l' t) ∧ (∃ c ∈ l', c.2 = 1) ∧ (∀ c ∈ l', c.2 ≤ 1) ∧
      l'.map (·.1) = l.map (·.1) := by
  obtain ⟨M, hM, ⟨c, hc, hcM⟩, h1, he⟩ := norm_spd_correct l t h
  refine ⟨_, he, ⟨(c.1, c.2 / M), List.mem_map.mpr ⟨c, hc, rfl⟩, ?_⟩, ?_, ?_⟩
  · rw [hcM, div_self hM.ne']
  · intro d hd
    obtain ⟨e, he, rfl⟩ := List.mem_map.mp hd
    exact (div_le_one hM).mpr (h1 e he)
  · rw [List.map_map]
    rfl

/-- C71. A spectrum without a positive value is rejected and left unchanged. -/
theorem norm_spd_rejects (l : List (ℕ × ℝ)) (t : List (ℕ × XR)) (h : ∀ c ∈ l, c.2 ≤ 0) :
    clrNormSpd (Spd.emb l t) = ok (-EINVAL, Spd.emb l t) := by
  obtain ⟨M, h1, h2, h3, hm⟩ := norm_max l t
  have hM : M = 0 := by
    rcases h3 with h3 | ⟨c, hc, h3⟩
    · exact h3
    · exact le_antisymm (h3 ▸ h c hc) h2
  unfold clrNormSpd
  refine Eq.trans (congrArg (fun x => x >>= _) hm) ?_
  rw [ok_bind]
  exact if_pos (by simp [hM])

/-- A spectrum with a positive value. -/
example : ∃ c ∈ [(400, (-1 : ℝ)), (500, 2)], 0 < c.2 := ⟨(500, 2), by simp, by norm_num⟩

/-! ### Luminous efficiency (C73) -/

theorem lef_length (lef : Lef) : (clrLefGet lef).length = 81 := by
  cases lef <;> decide +kernel

theorem lef_nm (lef : Lef) : (clrLefGet lef).map (·.1) = (List.range 81).map fun i => 380 + 5 * i := by
  cases lef <;> decide +kernel

/-- The tabulated efficiency at 380 + 5 i nm. -/
noncomputable def efficiency (lef : Lef) (i : ℕ) : ℝ := ((clrLefGet lef).getD i (0, 0)).2

theorem lef_rd (lef : Lef) {i : ℕ} (hi : i < 81) :
    ∃ q : ℚ, rd (clrLefGet lef) i = ok (380 + 5 * i, q) ∧ efficiency lef i = q := by
  have hl : i < (clrLefGet lef).length := by rw [lef_length]; exact hi
  have h1 : (clrLefGet lef)[i].1 = 380 + 5 * i := by
    have := congrArg (fun l => l[i]?) (lef_nm lef)
    simp only [List.getElem?_map, List.getElem?_eq_getElem hl, Option.map_some, List.getElem?_range hi] at this
    exact Option.some.inj this
  refine ⟨(clrLefGet lef)[i].2, ?_, ?_⟩
  · rw [rd_lt hl, ← h1]
  · rw [efficiency, getD_lt hl]

theorem forRet_at {ρ : Type} {n k : ℕ} {f : ℕ → Unit → Out (Ctl Unit ρ)} {x : ρ} (hk : k < n)
    (hs : ∀ i, i < k → f i () = ok (.next ())) (hr : f k () = ok (.ret x)) : forRet n f () = ok (.ret x) := by
  induction n with
  | zero => omega
  | succ n ih =>
    rw [forRet]
    by_cases h : k < n
    · rw [ih h, ok_bind]
    · have : k = n := by omega
      subst this
      have hn : ∀ m, m ≤ k → forRet m f () = ok (.next ()) := by
        intro m
        induction m with
        | zero => intro _; rfl
        | succ m ihm =>
          intro hm
          rw [forRet, ihm (by omega), ok_bind]
          exact hs m (by omega)
      rw [hn k le_rfl, ok_bind]
      exact hr

/-- C73. Outside 380..780 nm the efficiency is 0. -/
theorem lef_outside (lef : Lef) (nm : ℕ) (h : nm < 380 ∨ 780 < nm) : clrLefLerp lef nm = ok (0, fin 0) := by
  obtain ⟨q, h0, -⟩ := lef_rd lef (i := 0) (by omega)
  obtain ⟨r, h1, -⟩ := lef_rd lef (i := 80) (by omega)
  unfold clrLefLerp
  simp only [h0, h1, ok_bind, Nat.reduceSub]
  rw [if_pos (by omega)]
  simp

/-- C73. `zsl_clr_lef_lerp` between 380 and 780 nm: the linear interpolation of the table, for every wavelength and every choice of
the table; no read is out of bounds. -/
theorem lef_correct (lef : Lef) (nm : ℕ) (h : 380 ≤ nm ∧ nm ≤ 780) :
    clrLefLerp lef nm = ok (0, fin (efficiency lef ((nm - 380) / 5) +
      ((nm - 380) % 5 : ℕ) / 5 * (efficiency lef ((nm - 380) / 5 + 1) - efficiency lef ((nm - 380) / 5)))) := by
  obtain ⟨q, h0, -⟩ := lef_rd lef (i := 0) (by omega)
  obtain ⟨r, h1, -⟩ := lef_rd lef (i := 80) (by omega)
  unfold clrLefLerp
  simp only [h0, h1, ok_bind, Nat.reduceSub]
  rw [if_neg (by omega)]
  set k := (nm - 380) / 5 with hk
  by_cases hm : (nm - 380) % 5 = 0
  · obtain ⟨v, hv, hv'⟩ := lef_rd lef (i := k) (by omega)
    rw [forRet_at (k := k) (x := Sum.inl v) (by omega)]
    · simp only [ok_bind, pure_eq, lit_eq, hm, hv', Nat.cast_zero, zero_div, zero_mul, add_zero]
    · intro i hi
      obtain ⟨w, hw, -⟩ := lef_rd lef (i := i) (by omega)
      simp only [hw, ok_bind]
      rw [if_neg (by omega), if_neg (by omega), pure_eq]
    · simp only [hv, ok_bind]
      rw [if_pos (by omega), pure_eq]
  · obtain ⟨v, hv, hv'⟩ := lef_rd lef (i := k) (by omega)
    obtain ⟨w, hw, hw'⟩ := lef_rd lef (i := k + 1) (by omega)
    rw [forRet_at (k := k + 1) (x := Sum.inr (k + 1, k)) (by omega)]
    · simp only [hv, hw, ok_bind, pure_eq, lit_eq, fin_sub, XR.ofNat_eq, hv', hw', Rat.cast_ofNat]
      rw [fin_div (by norm_num), fin_mul, fin_add]
      have : nm - (380 + 5 * k) = (nm - 380) % 5 := by omega
      rw [this]
      congr 3
      ring
    · intro i hi
      obtain ⟨w, hw, -⟩ := lef_rd lef (i := i) (by omega)
      simp only [hw, ok_bind]
      rw [if_neg (by omega), if_neg (by omega), pure_eq]
    · simp only [hw, ok_bind]
      rw [if_neg (by omega), if_pos (by omega), pure_eq]
      simp

/-- C73. At the wavelengths of the table the efficiency is the tabulated one. -/
theorem lef_table (lef : Lef) (i : ℕ) (hi : i < 81) : clrLefLerp lef (380 + 5 * i) = ok (0, fin (efficiency lef i)) := by
  rw [lef_correct lef _ (by omega)]
  simp

/-- C73. Everywhere else it lies between the neighbouring entries. -/
theorem lef_between (lef : Lef) (nm : ℕ) (h : 380 ≤ nm ∧ nm ≤ 780) :
    ∃ y, clrLefLerp lef nm = ok (0, fin y) ∧
      min (efficiency lef ((nm - 380) / 5)) (efficiency lef ((nm - 380) / 5 + 1)) ≤ y ∧
      y ≤ max (efficiency lef ((nm - 380) / 5)) (efficiency lef ((nm - 380) / 5 + 1)) := by
  refine ⟨_, lef_correct lef nm h, ?_⟩
  generalize efficiency lef ((nm - 380) / 5) = a
  generalize efficiency lef ((nm - 380) / 5 + 1) = b
  have h0 : (0 : ℝ) ≤ ((nm - 380) % 5 : ℕ) / 5 := by positivity
  have h1 : (((nm - 380) % 5 : ℕ) : ℝ) / 5 ≤ 1 := by
    rw [div_le_one (by norm_num)]
    exact_mod_cast (Nat.mod_lt _ (by norm_num)).le
  generalize (((nm - 380) % 5 : ℕ) : ℝ) / 5 = s at h0 h1
  rcases le_total a b with hab | hab
  · rw [min_eq_left hab, max_eq_right hab]
    constructor <;> nlinarith
  · rw [min_eq_right hab, max_eq_left hab]
    constructor <;> nlinarith

/-- C73. An interior wavelength and the values around it. -/
theorem lef_peak : clrLefLerp .photopic 555 = ok (0, fin 1) ∧ efficiency .photopic 34 = 0.99495 := by
  refine ⟨?_, ?_⟩
  · have := lef_table .photopic 35 (by omega)
    rw [this]
    have e : (clrLefGet .photopic).getD 35 (0, 0) = (555, 1) := by decide +kernel
    rw [efficiency, e]
    norm_num
  · have e : (clrLefGet .photopic).getD 34 (0, 0) = (550, 0.99495) := by decide +kernel
    rw [efficiency, e]
    norm_num

/-! ### Black bodies (C100) -/

theorem gridNm_range {k : ℕ} (hk : k < 95) : 360 ≤ gridNm k ∧ gridNm k ≤ 830 := by
  unfold gridNm
  omega

/-- The exitance has the sign of the temperature. -/
theorem planck_sign {T w : ℝ} (hw : 0 < w) : (0 < T → 0 < planck T w) ∧ (T < 0 → planck T w < 0) := by
  unfold planck
  constructor
  · intro hT
    have : 0 < Real.exp (1.4387863142323088e-2 / (w * T)) - 1 := by
      rw [sub_pos, Real.one_lt_exp_iff]
      positivity
    positivity
  · intro hT
    have : Real.exp (1.4387863142323088e-2 / (w * T)) - 1 < 0 := by
      rw [sub_neg, Real.exp_lt_one_iff]
      exact div_neg_of_pos_of_neg (by norm_num) (mul_neg_of_pos_of_neg hw hT)
    exact div_neg_of_pos_of_neg (by norm_num) (mul_neg_of_pos_of_neg (by positivity) this)

theorem glow_sign (obs : Obs) (f : ℝ × ℝ × ℝ → ℝ) (h0 : ∀ k, k < 95 → 0 ≤ f (cmf obs (gridNm k)))
    (h1 : ∃ k, k < 95 ∧ 0 < f (cmf obs (gridNm k))) (T : ℝ) : (0 < T → 0 < glow obs f T) ∧ (T < 0 → glow obs f T < 0) := by
  obtain ⟨k, hk, hp⟩ := h1
  have hw : ∀ k, (0 : ℝ) < gridNm k * 1e-9 := by
    intro k
    have : 0 < gridNm k := by unfold gridNm; omega
    have : (0 : ℝ) < gridNm k := by exact_mod_cast this
    positivity
  unfold glow
  constructor
  · intro hT
    refine Finset.sum_pos' (fun i hi => ?_) ⟨k, Finset.mem_range.mpr hk, mul_pos ((planck_sign (hw k)).1 hT) hp⟩
    exact mul_nonneg ((planck_sign (hw i)).1 hT).le (h0 i (Finset.mem_range.mp hi))
  · intro hT
    refine Finset.sum_neg' (fun i hi => ?_) ⟨k, Finset.mem_range.mpr hk, mul_neg_of_neg_of_pos ((planck_sign (hw k)).2 hT) hp⟩
    exact mul_nonpos_of_nonpos_of_nonneg ((planck_sign (hw i)).2 hT).le (h0 i (Finset.mem_range.mp hi))

theorem glowY_sign (obs : Obs) (T : ℝ) : (0 < T → 0 < glow obs (·.2.1) T) ∧ (T < 0 → glow obs (·.2.1) T < 0) :=
  glow_sign obs _ (fun _ hk => (cmf_sign obs (gridNm_range hk)).2.1.le)
    ⟨0, by omega, (cmf_sign obs (gridNm_range (by omega))).2.1⟩ T

theorem cmf_first (obs : Obs) : 0 < (cmf obs (gridNm 0)).1 ∧ 0 < (cmf obs (gridNm 0)).2.2 := by
  have h : ∀ obs, 0 < ((clrObsGet obs).getD ((gridNm 0 - 360) / 5) (0, 0, 0)).1 ∧
      0 < ((clrObsGet obs).getD ((gridNm 0 - 360) / 5) (0, 0, 0)).2.2 := by
    intro obs
    cases obs <;> decide +kernel
  unfold cmf
  simp only
  exact_mod_cast h obs

theorem glowX_sign (obs : Obs) (T : ℝ) : (0 < T → 0 < glow obs (·.1) T) ∧ (T < 0 → glow obs (·.1) T < 0) :=
  glow_sign obs _ (fun _ hk => (cmf_sign obs (gridNm_range hk)).1) ⟨0, by omega, (cmf_first obs).1⟩ T

theorem glowZ_sign (obs : Obs) (T : ℝ) : (0 < T → 0 < glow obs (·.2.2) T) ∧ (T < 0 → glow obs (·.2.2) T < 0) :=
  glow_sign obs _ (fun _ hk => (cmf_sign obs (gridNm_range hk)).2.2) ⟨0, by omega, (cmf_first obs).2⟩ T

theorem bbody_eq {T : ℝ} (hT : T ≠ 0) (k : ℕ) :
    (fin 374.183162616761619 : XR) / (fin ((gridNm k * 1e-3) * (gridNm k * 1e-3) * (gridNm k * 1e-3) * (gridNm k * 1e-3) *
      (gridNm k * 1e-3)) * fin 1e-12 * CReal.expm1 (fin 14.387863142323088 / (fin T * fin (gridNm k * 1e-3) * fin 1e-3))) =
      fin (planck T (gridNm k * 1e-9)) := by
  have hk : (0 : ℝ) < gridNm k := by
    have : 0 < gridNm k := by unfold gridNm; omega
    exact_mod_cast this
  generalize (gridNm k : ℝ) = n at hk
  have h1 : T * (n * 1e-3) * 1e-3 ≠ 0 := mul_ne_zero (mul_ne_zero hT (by positivity)) (by norm_num)
  have e1 : (14.387863142323088 : ℝ) / (T * (n * 1e-3) * 1e-3) = 1.4387863142323088e-2 / (n * 1e-9 * T) := by
    rw [div_eq_div_iff h1 (mul_ne_zero (by positivity) hT)]
    ring
  have h2 : Real.exp (1.4387863142323088e-2 / (n * 1e-9 * T)) - 1 ≠ 0 := by
    rw [sub_ne_zero, ne_eq, Real.exp_eq_one_iff]
    exact div_ne_zero (by norm_num) (mul_ne_zero (by positivity) hT)
  rw [fin_mul, fin_mul, fin_mul, fin_div h1, fin_expm1, e1, fin_mul, fin_div (mul_ne_zero (by positivity) h2), planck]
  congr 1
  rw [div_eq_div_iff (mul_ne_zero (by positivity) h2) (mul_ne_zero (by positivity) h2)]
  ring

/-- C100. `zsl_clr_conv_ct_xyz` for every temperature but zero: X and Z are the sums over the 5 nm grid of Planck's law times the
colour matching functions, relative to the sum for Y, and Y is 1. -/
theorem ct_xyz_correct (T : ℝ) (hT : T ≠ 0) (obs : Obs) :
    clrCtXyz (fin T) obs = ok (0, Xyz.emb ⟨glow obs (·.1) T / glow obs (·.2.1) T, 1, glow obs (·.2.2) T / glow obs (·.2.1) T, obs, .A,
      false, false, false⟩) := by
  have hY : glow obs (·.2.1) T ≠ 0 := by
    rcases lt_or_gt_of_ne hT with h | h
    · exact ((glowY_sign obs T).2 h).ne
    · exact ((glowY_sign obs T).1 h).ne'
  let part (f : ℝ × ℝ × ℝ → ℝ) (n : ℕ) : ℝ := ∑ k ∈ Finset.range n, planck T (gridNm k * 1e-9) * f (cmf obs (gridNm k))
  unfold clrCtXyz
  have hloop := forN_eq (n := 95)
    (f := fun k (z : Xyz XR) => (do
      let nm := 360 + 5 * k
      let i := (nm - 360) / 5
      let d : XR := CReal.ofNat nm * lit 1e-3
      let d5 := d * d * d * d * d
      let bbody := (lit 374.183162616761619 : XR) / (d5 * lit 1e-12 * CReal.expm1 (lit 14.387863142323088 / (fin T * d * lit 1e-3)))
      let row ← rd (clrObsGet obs) i
      return { z with x := z.x + bbody * lit row.1, y := z.y + bbody * lit row.2.1, z := z.z + bbody * lit row.2.2 } : Out (Xyz XR)))
    (s := ⟨lit 0, lit 0, lit 0, .deg2, .A, false, false, false⟩)
    (fun n => ⟨fin (part (·.1) n), fin (part (·.2.1) n), fin (part (·.2.2) n), .deg2, .A, false, false, false⟩)
    (by simp [part]) (by
      intro k hk
      obtain ⟨row, hr, hc⟩ := cmf_rd obs (gridNm_range hk)
      have hr' : rd (clrObsGet obs) ((360 + 5 * k - 360) / 5) = ok row := hr
      have hb := bbody_eq hT k
      simp only [hr', ok_bind, pure_eq, part, Finset.sum_range_succ, hc, XR.ofNat_eq, lit_eq, fin_mul]
      rw [show ((360 + 5 * k : ℕ) : ℝ) = (gridNm k : ℝ) from rfl]
      norm_num at hb ⊢
      rw [hb]
      simp)
  refine Eq.trans (congrArg (fun x => x >>= _) hloop) ?_
  simp only [ok_bind, pure_eq]
  rw [show part (·.2.1) 95 = glow obs (·.2.1) T from rfl, fin_div hY, fin_div hY]
  simp [Xyz.emb, part, glow]

/-- C100. For every positive temperature all three tristimulus values are positive numbers. -/
theorem ct_xyz_pos (T : ℝ) (hT : 0 < T) (obs : Obs) :
    0 < glow obs (·.1) T / glow obs (·.2.1) T ∧ 0 < glow obs (·.2.2) T / glow obs (·.2.1) T :=
  ⟨div_pos ((glowX_sign obs T).1 hT) ((glowY_sign obs T).1 hT), div_pos ((glowZ_sign obs T).1 hT) ((glowY_sign obs T).1 hT)⟩

theorem glow_ratio_pos (T : ℝ) (hT : T ≠ 0) (obs : Obs) :
    0 < glow obs (·.1) T / glow obs (·.2.1) T ∧ 0 < glow obs (·.2.2) T / glow obs (·.2.1) T := by
  rcases lt_or_gt_of_ne hT with h | h
  · exact ⟨div_pos_of_neg_of_neg ((glowX_sign obs T).2 h) ((glowY_sign obs T).2 h),
      div_pos_of_neg_of_neg ((glowZ_sign obs T).2 h) ((glowY_sign obs T).2 h)⟩
  · exact ct_xyz_pos T h obs

/-- The chromaticity of the black body of temperature `T`. -/
noncomputable def planckUv (obs : Obs) (T : ℝ) : ℝ × ℝ :=
  (4 * glow obs (·.1) T / (glow obs (·.1) T + 15 * glow obs (·.2.1) T + 3 * glow obs (·.2.2) T),
   6 * glow obs (·.2.1) T / (glow obs (·.1) T + 15 * glow obs (·.2.1) T + 3 * glow obs (·.2.2) T))

theorem planckUv_eq {T : ℝ} (hT : T ≠ 0) (obs : Obs) (t : Xyy XR) (o : Uv60 XR) :
    clrXyzUv60 t (Xyz.emb ⟨glow obs (·.1) T / glow obs (·.2.1) T, 1, glow obs (·.2.2) T / glow obs (·.2.1) T, obs, .A,
      false, false, false⟩) o =
      { o with u := fin (planckUv obs T).1, v := fin (planckUv obs T).2, obs := obs, illum := .A } := by
  obtain ⟨hx, hz⟩ := glow_ratio_pos T hT obs
  have hY : glow obs (·.2.1) T ≠ 0 := by
    rcases lt_or_gt_of_ne hT with h | h
    · exact ((glowY_sign obs T).2 h).ne
    · exact ((glowY_sign obs T).1 h).ne'
  rw [xyz_uv60_correct _ t o (by simp only; positivity) (by simp only; positivity)]
  simp only [planckUv]
  have hD : glow obs (·.1) T / glow obs (·.2.1) T + 15 * 1 + 3 * (glow obs (·.2.2) T / glow obs (·.2.1) T) =
      (glow obs (·.1) T + 15 * glow obs (·.2.1) T + 3 * glow obs (·.2.2) T) / glow obs (·.2.1) T := by
    field_simp
  have hD0 : glow obs (·.1) T + 15 * glow obs (·.2.1) T + 3 * glow obs (·.2.2) T ≠ 0 := by
    intro e
    rw [e, zero_div] at hD
    have : 0 < glow obs (·.1) T / glow obs (·.2.1) T + 15 * 1 + 3 * (glow obs (·.2.2) T / glow obs (·.2.1) T) := by positivity
    rw [hD] at this
    exact lt_irrefl _ this
  rw [hD]
  congr 2
  · field_simp
  · field_simp

/-- C100. `zsl_clr_conv_ct_uv60`: the chromaticity of the black body. -/
theorem ct_uv60_correct (T : ℝ) (hT : T ≠ 0) (obs : Obs) (t : Xyy XR) (o : Uv60 XR) :
    clrCtUv60 t (fin T) obs o =
      ok (0, { o with u := fin (planckUv obs T).1, v := fin (planckUv obs T).2, obs := obs, illum := .A }) := by
  unfold clrCtUv60
  rw [ct_xyz_correct T hT obs, ok_bind]
  simp only
  refine Eq.trans (if_neg (by simp)) ?_
  rw [planckUv_eq hT, pure_eq]

/-- C100. `zsl_clr_conv_ct_rgbf` and `zsl_clr_conv_ct_rgb8` convert the tristimulus of the black body; with a 3×3 matrix they are
defined for every temperature but zero. -/
theorem ct_rgb_correct (cap : Bool) (junk : ℕ → XR) (T : ℝ) (hT : T ≠ 0) (obs : Obs) (A : Matrix (Fin 3) (Fin 3) ℝ) (t : List XR)
    (o : Rgbf XR) (o' : Rgb8) :
    let c : Xyz ℝ := ⟨glow obs (·.1) T / glow obs (·.2.1) T, 1, glow obs (·.2.2) T / glow obs (·.2.1) T, obs, .A, false, false, false⟩
    clrCtRgbf cap junk (fin T) obs (mat A t) o = clrXyzRgbf cap junk c.emb (mat A t) ∧
    clrCtRgb8 cap junk (fin T) obs (mat A t) o' = clrXyzRgb8 cap junk c.emb (mat A t) o' ∧
    (clrCtRgb8 cap junk (fin T) obs (mat A t) o').sat fun r => r.1 = 0 ∧ r.2.r ≤ 255 ∧ r.2.g ≤ 255 ∧ r.2.b ≤ 255 := by
  have h2 : clrCtRgb8 cap junk (fin T) obs (mat A t) o' = clrXyzRgb8 cap junk (Xyz.emb ⟨glow obs (·.1) T / glow obs (·.2.1) T, 1,
      glow obs (·.2.2) T / glow obs (·.2.1) T, obs, .A, false, false, false⟩) (mat A t) o' := by
    unfold clrCtRgb8
    rw [ct_xyz_correct T hT obs, ok_bind]
    exact if_neg (by simp)
  refine ⟨?_, h2, ?_⟩
  · unfold clrCtRgbf
    rw [ct_xyz_correct T hT obs, ok_bind]
    exact if_neg (by simp)
  · rw [h2, rgb8_correct]
    exact (sat_ok _ _).mpr ⟨rfl, rgb8_range _, rgb8_range _, rgb8_range _⟩

end Verif
