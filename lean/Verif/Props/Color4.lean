import Mathlib.Analysis.Real.Pi.Bounds
import Verif.Lemmas.XRNan
import Verif.Props.Color2

/-!
# Correlated colour temperature (C72, C102, C103)
-/

namespace Verif

open Out XR

/-! ### The table -/

theorem locus_length : ohno2014Table.length = 304 := by decide +kernel

theorem locus_rd {k : ℕ} (hk : k < 304) : ∃ t u v : ℚ, rd ohno2014Table k = ok (t, u, v) ∧ locusT k = t ∧ locusU k = u ∧ locusV k = v := by
  have hl : k < ohno2014Table.length := by rw [locus_length]; exact hk
  refine ⟨ohno2014Table[k].1, ohno2014Table[k].2.1, ohno2014Table[k].2.2, by rw [rd_lt hl], ?_, ?_, ?_⟩
  · rw [locusT, getD_lt hl]
  · rw [locusU, getD_lt hl]
  · rw [locusV, getD_lt hl]

theorem locus_rdI {k : ℕ} (z : ℤ) (hz : z = k) : rdI ohno2014Table z = rd ohno2014Table k := by
  subst hz
  simp [rdI]

/-- What the table has to satisfy around its `k`-th row, with rational arithmetic: rising temperatures in steps of about one percent,
and neighbours that are close to each other but not the same. -/
def rowFine (p c n : ℚ × ℚ × ℚ) : Bool :=
  let gp := (p.2.1 - c.2.1) * (p.2.1 - c.2.1) + (p.2.2 - c.2.2) * (p.2.2 - c.2.2)
  let gn := (n.2.1 - c.2.1) * (n.2.1 - c.2.1) + (n.2.2 - c.2.2) * (n.2.2 - c.2.2)
  let l := (n.2.1 - p.2.1) * (n.2.1 - p.2.1) + (n.2.2 - p.2.2) * (n.2.2 - p.2.2)
  let s := 0.0036 + 2 * (gp + gn)
  let s' := 0.0001 + 2 * (gp + gn)
  decide (0 < p.1) && decide (p.1 < c.1) && decide (c.1 < n.1) && decide (n.1 ≤ 1.0102 * c.1) && decide (c.1 ≤ 1.0102 * p.1) &&
    decide (0 < l) && decide (2 * (s * s * s) ≤ l) && decide (2 * (s' * s' * s') ≤ 0.000036 * l)

theorem locus_fine : ∀ k < 302, rowFine (ohno2014Table.getD k (0, 0, 0)) (ohno2014Table.getD (k + 1) (0, 0, 0))
    (ohno2014Table.getD (k + 2) (0, 0, 0)) = true := by
  decide +kernel

/-- The same facts for the real numbers of the specification. -/
theorem locus_facts {m : ℕ} (h1 : 1 ≤ m) (h2 : m ≤ 302) :
    0 < locusT (m - 1) ∧ locusT (m - 1) < locusT m ∧ locusT m < locusT (m + 1) ∧ locusT (m + 1) ≤ 1.0102 * locusT m ∧
    locusT m ≤ 1.0102 * locusT (m - 1) ∧ 0 < locusL2 m ∧
    2 * (0.0036 + 2 * (locusD2 (m - 1) (locusU m) (locusV m) + locusD2 (m + 1) (locusU m) (locusV m))) ^ 3 ≤ locusL2 m ∧
    2 * (0.0001 + 2 * (locusD2 (m - 1) (locusU m) (locusV m) + locusD2 (m + 1) (locusU m) (locusV m))) ^ 3 ≤ 0.000036 * locusL2 m := by
  obtain ⟨k, rfl⟩ : ∃ k, m = k + 1 := ⟨m - 1, by omega⟩
  have h := locus_fine k (by omega)
  simp only [Nat.add_sub_cancel, locusT, locusL2, locusD2, locusU, locusV]
  generalize ohno2014Table.getD k (0, 0, 0) = p at *
  generalize ohno2014Table.getD (k + 1) (0, 0, 0) = c at *
  have e2 : k + 1 + 1 = k + 2 := rfl
  rw [e2]
  generalize ohno2014Table.getD (k + 2) (0, 0, 0) = n at *
  unfold rowFine at h
  simp only [Bool.and_eq_true, decide_eq_true_eq] at h
  obtain ⟨⟨⟨⟨⟨⟨⟨a1, a2⟩, a3⟩, a4⟩, a5⟩, a6⟩, a7⟩, a8⟩ := h
  have b1 : ((0 : ℚ) : ℝ) < p.1 := by exact_mod_cast a1
  have b4 : (n.1 : ℝ) ≤ ((1.0102 * c.1 : ℚ) : ℝ) := by exact_mod_cast a4
  have b5 : (c.1 : ℝ) ≤ ((1.0102 * p.1 : ℚ) : ℝ) := by exact_mod_cast a5
  have b6 := (Rat.cast_lt (K := ℝ)).mpr a6
  have b7 := (Rat.cast_le (K := ℝ)).mpr a7
  have b8 := (Rat.cast_le (K := ℝ)).mpr a8
  push_cast at b1 b4 b5 b6 b7 b8
  refine ⟨b1, by exact_mod_cast a2, by exact_mod_cast a3, ?_, ?_, ?_, ?_, ?_⟩
  · linarith
  · linarith
  · linarith
  · refine le_trans (le_of_eq ?_) (b7.trans (le_of_eq ?_)) <;> ring
  · refine le_trans (le_of_eq ?_) (b8.trans (le_of_eq ?_)) <;> ring

theorem locusT_lt {i j : ℕ} (h : i < j) (hj : j < 304) : locusT i < locusT j := by
  induction j with
  | zero => omega
  | succ j ih =>
    have step : locusT j < locusT (j + 1) := by
      rcases Nat.lt_or_ge j 1 with h0 | h0
      · have : j = 0 := by omega
        subst this
        exact (locus_facts (m := 1) le_rfl (by omega)).2.1
      · rcases Nat.lt_or_ge j 303 with h1 | h1
        · exact (locus_facts h0 (by omega)).2.2.1
        · omega
    rcases Nat.lt_or_ge i j with h0 | h0
    · exact (ih h0 (by omega)).trans step
    · have : i = j := by omega
      subst this
      exact step

/-! ### The search -/

theorem uvDist_eq {k : ℕ} {t u' v' : ℚ} (c : Uv60 ℝ) (h2 : locusU k = u') (h3 : locusV k = v') :
    uvDist (t, u', v') c.emb = fin (locusD2 k c.u c.v) := by
  simp [uvDist, Uv60.emb, locusD2, h2, h3, pow_two]

/-- The search returns the first nearest row, or row 0 if no row is nearer than 1. -/
theorem ohnoSearch_correct (c : Uv60 ℝ) : sat (ohnoSearch c.emb) fun (s : XR × ℕ) =>
    (s.2 = 0 ∧ ∀ j < 304, 1 ≤ locusD2 j c.u c.v) ∨ (NearestRow s.2 c.u c.v ∧ locusD2 s.2 c.u c.v < 1) := by
  have key : sat (ohnoSearch c.emb) fun (s : XR × ℕ) => ∃ b : ℝ, s.1 = fin b ∧
      ((s.2 = 0 ∧ b = 1 ∧ ∀ j < ohno2014Table.length, 1 ≤ locusD2 j c.u c.v) ∨
        (s.2 < ohno2014Table.length ∧ b = locusD2 s.2 c.u c.v ∧ b < 1 ∧ (∀ j < ohno2014Table.length, b ≤ locusD2 j c.u c.v) ∧
          ∀ j < s.2, b < locusD2 j c.u c.v)) := by
    unfold ohnoSearch
    refine forN_sat (fun n (s : XR × ℕ) => ∃ b : ℝ, s.1 = fin b ∧ ((s.2 = 0 ∧ b = 1 ∧ ∀ j < n, 1 ≤ locusD2 j c.u c.v) ∨
        (s.2 < n ∧ b = locusD2 s.2 c.u c.v ∧ b < 1 ∧ (∀ j < n, b ≤ locusD2 j c.u c.v) ∧
          ∀ j < s.2, b < locusD2 j c.u c.v))) ?_ ?_
    · exact ⟨1, by simp, Or.inl ⟨rfl, rfl, by intro j hj; omega⟩⟩
    · rintro i hi ⟨best, idx⟩ ⟨b, hb, hs⟩
      simp only at hb hs
      subst hb
      obtain ⟨t, u', v', hr, -, hu, hv⟩ := locus_rd (k := i) (by rw [locus_length] at hi; exact hi)
      simp only [hr, ok_bind, uvDist_eq c hu hv, fin_lt]
      by_cases hlt : locusD2 i c.u c.v < b
      · rw [if_pos hlt]
        refine (sat_ok _ _).mpr ⟨_, rfl, Or.inr ⟨by simp, rfl, ?_, ?_, ?_⟩⟩
        · rcases hs with ⟨-, rfl, -⟩ | ⟨-, -, h, -⟩
          · exact hlt
          · exact hlt.trans h
        · intro j hj
          rcases Nat.lt_succ_iff_lt_or_eq.mp hj with h | rfl
          · rcases hs with ⟨-, rfl, h'⟩ | ⟨-, -, -, h', -⟩
            · exact hlt.le.trans (h' j h)
            · exact hlt.le.trans (h' j h)
          · exact le_rfl
        · intro j hj
          simp only at hj
          rcases hs with ⟨-, rfl, h'⟩ | ⟨-, -, -, h', -⟩
          · exact hlt.trans_le (h' j hj)
          · exact hlt.trans_le (h' j hj)
      · rw [if_neg hlt]
        push Not at hlt
        refine (sat_ok _ _).mpr ⟨b, rfl, ?_⟩
        rcases hs with ⟨h0, rfl, h'⟩ | ⟨h0, h1, h2, h', h4⟩
        · refine Or.inl ⟨h0, rfl, ?_⟩
          intro j hj
          rcases Nat.lt_succ_iff_lt_or_eq.mp hj with h | rfl
          · exact h' j h
          · exact hlt
        · refine Or.inr ⟨by simp only; omega, h1, h2, ?_, h4⟩
          intro j hj
          rcases Nat.lt_succ_iff_lt_or_eq.mp hj with h | rfl
          · exact h' j h
          · exact hlt
  obtain ⟨s, hs, b, -, h⟩ := key
  refine ⟨s, hs, ?_⟩
  rw [locus_length] at h
  rcases h with ⟨h0, -, h1⟩ | ⟨h0, h1, h2, h3, h4⟩
  · exact Or.inl ⟨h0, h1⟩
  · subst h1
    exact Or.inr ⟨⟨h0, h3, h4⟩, h2⟩

theorem nearest_unique {m n : ℕ} {u v : ℝ} (hm : NearestRow m u v) (hn : NearestRow n u v) : m = n := by
  rcases Nat.lt_trichotomy m n with h | h | h
  · exact absurd (hn.2.2 m h) (not_lt.mpr (hm.2.1 n hn.1))
  · exact h
  · exact absurd (hm.2.2 n h) (not_lt.mpr (hn.2.1 m hm.1))

/-- The polynomial as the code evaluates it. -/
theorem sextic_eq (k : List ℚ) (hk : k.length = 7) (a : ℝ) : sextic k (fin a) = ok (fin (poly6 k a)) := by
  obtain ⟨k0, k1, k2, k3, k4, k5, k6, rfl⟩ : ∃ a b c d e f g, k = [a, b, c, d, e, f, g] := by
    match k, hk with
    | [a, b, c, d, e, f, g], _ => exact ⟨a, b, c, d, e, f, g, rfl⟩
  have hp : ∀ n : ℕ, CReal.pow (fin a) (fin ((n : ℚ) : ℝ)) = fin (a ^ n) := by
    intro n
    rw [← fin_pow_nat]
    norm_num
  have h2 := hp 2
  have h3 := hp 3
  have h4 := hp 4
  have h5 := hp 5
  have h6 := hp 6
  push_cast at h2 h3 h4 h5 h6
  have e : sextic [k0, k1, k2, k3, k4, k5, k6] (fin a) = ok (lit k6 * CReal.pow (fin a) (lit 6) + lit k5 * CReal.pow (fin a) (lit 5) +
      lit k4 * CReal.pow (fin a) (lit 4) + lit k3 * CReal.pow (fin a) (lit 3) + lit k2 * CReal.pow (fin a) (lit 2) +
      lit k1 * fin a + lit k0) := rfl
  rw [e]
  simp only [lit_eq, Rat.cast_ofNat, h2, h3, h4, h5, h6, fin_mul, fin_add, poly6, Finset.sum_range_succ, Finset.sum_range_zero]
  simp
  ring

/-- The squared distance in rational arithmetic. -/
def ratD2 (k : ℕ) (u v : ℚ) : ℚ :=
  ((ohno2014Table.getD k (0, 0, 0)).2.1 - u) * ((ohno2014Table.getD k (0, 0, 0)).2.1 - u) +
  ((ohno2014Table.getD k (0, 0, 0)).2.2 - v) * ((ohno2014Table.getD k (0, 0, 0)).2.2 - v)

theorem ratD2_cast (k : ℕ) (u v : ℚ) : locusD2 k u v = (ratD2 k u v : ℝ) := by
  rw [locusD2, ratD2, locusU, locusV]
  push_cast
  ring

theorem nearest_rat {m : ℕ} {u v : ℚ} (h0 : m < 304) (h : ∀ j < 304, ratD2 m u v ≤ ratD2 j u v) (h' : ∀ j < m, ratD2 m u v < ratD2 j u v) :
    NearestRow m u v :=
  ⟨h0, fun j hj => by rw [ratD2_cast, ratD2_cast]; exact_mod_cast h j hj,
    fun j hj => by rw [ratD2_cast, ratD2_cast]; exact_mod_cast h' j hj⟩

/-- The point (0.292, 0.24) itself is rejected: its nearest row is the last one. -/
theorem focus_nearest : NearestRow 303 (0.292 : ℝ) 0.24 := by
  have := nearest_rat (m := 303) (u := 0.292) (v := 0.24) (by omega) (by decide +kernel) (by decide +kernel)
  push_cast at this
  exact this

theorem off_focus {m : ℕ} {u v : ℝ} (hm : NearestRow m u v) (h2 : m ≤ 302) : u ≠ 0.292 ∨ v ≠ 0.24 := by
  by_contra h
  push Not at h
  obtain ⟨rfl, rfl⟩ := h
  have := nearest_unique hm focus_nearest
  omega

theorem ohno2014_core (c : Uv60 ℝ) (o : Cct XR) (hu : c.uInv = false) (hv : c.vInv = false) (m : ℕ) (hm : NearestRow m c.u c.v)
    (hd : locusD2 m c.u c.v < 1) (h1 : 1 ≤ m) (h2 : m ≤ 302) :
    clrOhno2014 c.emb o = (do
      let lbb ← sextic ohno2014Data (CReal.acos (fin (c.u - 0.292) / fin (focusDist c.u c.v)))
      return (0, ⟨fin (locusT (m - 1) + (locusT (m + 1) - locusT (m - 1)) *
        (1 / 2 + (locusD2 (m - 1) c.u c.v ^ 2 - locusD2 (m + 1) c.u c.v ^ 2) / (2 * locusL2 m))),
        fin (focusDist c.u c.v) - lbb, false, false⟩)) := by
  obtain ⟨⟨b, m'⟩, hs, h⟩ := ohnoSearch_correct c
  have hmm : m' = m := by
    rcases h with ⟨-, h⟩ | ⟨h, -⟩
    · exact absurd hd (not_lt.mpr (h m hm.1))
    · exact nearest_unique h hm
  subst hmm
  obtain ⟨t, u', v', hr, ht, -, -⟩ := locus_rd (k := m') (by omega)
  obtain ⟨t1, u1, v1, hr1, ht1, -, -⟩ := locus_rd (k := 1) (by omega)
  obtain ⟨tl, ul, vl, hrl, htl, -, -⟩ := locus_rd (k := 302) (by omega)
  obtain ⟨tp, up, vp, hrp, htp, hup, hvp⟩ := locus_rd (k := m' - 1) (by omega)
  obtain ⟨tn, un, vn, hrn, htn, hun, hvn⟩ := locus_rd (k := m' + 1) (by omega)
  have hlen : ohno2014Table.length - 2 = 302 := by rw [locus_length]
  have hle1 : (t1 : ℝ) ≤ t := by
    rw [← ht1, ← ht]
    rcases Nat.lt_or_ge 1 m' with h' | h'
    · exact (locusT_lt h' (by omega)).le
    · have : m' = 1 := by omega
      rw [this]
  have hlel : (t : ℝ) ≤ tl := by
    rw [← htl, ← ht]
    rcases Nat.lt_or_ge m' 302 with h' | h'
    · exact (locusT_lt h' (by omega)).le
    · have : m' = 302 := by omega
      rw [this]
  have hL := (locus_facts h1 h2).2.2.2.2.2.1
  unfold clrOhno2014
  refine Eq.trans (if_neg (by simp [Uv60.emb, hu, hv])) ?_
  simp only [hs, ok_bind, hr, hr1, hlen, hrl, locus_rdI ((m' : ℤ) - 1) (by omega : _ = ((m' - 1 : ℕ) : ℤ)),
    locus_rdI ((m' : ℤ) + 1) (by omega : _ = ((m' + 1 : ℕ) : ℤ)), hrp, hrn, uvDist_eq c hup hvp, uvDist_eq c hun hvn]
  refine Eq.trans (if_neg ?_) ?_
  · simp only [lit_eq, Bool.or_eq_true, fin_lt, fin_gt, not_or, not_lt]
    exact ⟨hle1, hlel⟩
  have eL : ((un : ℝ) - up) * (un - up) + (vn - vp) * (vn - vp) = locusL2 m' := by
    rw [locusL2, hun, hup, hvn, hvp]
    ring
  have eF : (c.u - 0.292) * (c.u - 0.292) + (c.v - 0.24) * (c.v - 0.24) = (c.u - 0.292) ^ 2 + (c.v - 0.24) ^ 2 := by ring
  have e1 : ((0.292 : ℚ) : ℝ) = 0.292 := by norm_num
  have e2 : ((0.24 : ℚ) : ℝ) = 0.24 := by norm_num
  have e3 : (Uv60.emb c).u = fin c.u := rfl
  have e4 : (Uv60.emb c).v = fin c.v := rfl
  have hs0 : 0 < Real.sqrt (locusL2 m') := Real.sqrt_pos.mpr hL
  simp only [lit_eq, e3, e4, fin_sub, fin_mul, fin_add, eL, e1, e2, eF]
  rw [fin_sqrt hL.le, fin_sqrt (by positivity), ← focusDist]
  simp only [fin_mul, fin_add, Real.mul_self_sqrt hL.le]
  rw [fin_div (b := ((2 : ℚ) : ℝ) * Real.sqrt (locusL2 m')) (by norm_num; exact hs0.ne'), fin_div hs0.ne']
  simp only [fin_mul, fin_add, htp, htn]
  have e5 : (locusD2 (m' - 1) c.u c.v * locusD2 (m' - 1) c.u c.v - locusD2 (m' + 1) c.u c.v * locusD2 (m' + 1) c.u c.v + locusL2 m') /
      (((2 : ℚ) : ℝ) * Real.sqrt (locusL2 m')) / Real.sqrt (locusL2 m') =
      1 / 2 + (locusD2 (m' - 1) c.u c.v ^ 2 - locusD2 (m' + 1) c.u c.v ^ 2) / (2 * locusL2 m') := by
    rw [div_div, mul_assoc, Real.mul_self_sqrt hL.le]
    field_simp
    push_cast
    ring
  rw [e5]

/-- C102. The temperature `zsl_clr_conv_uv60_cct` reports with the method of Ohno (2014): between the neighbours of the nearest row of
the table, at the fraction given by the difference of the FOURTH powers of the distances, and Duv: the distance from the locus measured
on the ray from (0.292, 0.24). See `ohno2014_not_triangular` for what the method asks for. -/
theorem ohno2014_correct_partial (c : Uv60 ℝ) (o : Cct XR) (hu : c.uInv = false) (hv : c.vInv = false) (m : ℕ)
    (hm : NearestRow m c.u c.v) (hd : locusD2 m c.u c.v < 1) (h1 : 1 ≤ m) (h2 : m ≤ 302) :
    clrOhno2014 c.emb o = ok (0, Cct.emb ⟨locusT (m - 1) + (locusT (m + 1) - locusT (m - 1)) *
        (1 / 2 + (locusD2 (m - 1) c.u c.v ^ 2 - locusD2 (m + 1) c.u c.v ^ 2) / (2 * locusL2 m)),
      focusDist c.u c.v - poly6 ohno2014Data (Real.arccos ((c.u - 0.292) / focusDist c.u c.v)), false, false⟩) := by
  have hpos : 0 < (c.u - 0.292) ^ 2 + (c.v - 0.24) ^ 2 := by
    rcases off_focus hm h2 with h | h
    · have : 0 < (c.u - 0.292) ^ 2 := by have := sub_ne_zero.mpr h; positivity
      positivity
    · have : 0 < (c.v - 0.24) ^ 2 := by have := sub_ne_zero.mpr h; positivity
      positivity
  have hF : 0 < focusDist c.u c.v := Real.sqrt_pos.mpr hpos
  have habs : |c.u - 0.292| ≤ focusDist c.u c.v := Real.abs_le_sqrt (by nlinarith [sq_nonneg (c.v - 0.24)])
  rw [ohno2014_core c o hu hv m hm hd h1 h2, fin_div hF.ne', fin_acos, sextic_eq _ (by decide), ok_bind, pure_eq]
  · simp [Cct.emb]
  · rw [Set.mem_Icc, le_div_iff₀ hF, div_le_one hF]
    constructor
    · linarith [neg_abs_le (c.u - 0.292)]
    · linarith [le_abs_self (c.u - 0.292)]

theorem ohno2014_rejects_core (c : Uv60 ℝ) (o : Cct XR) (hu : c.uInv = false) (hv : c.vInv = false)
    (h : (∀ j < 304, 1 ≤ locusD2 j c.u c.v) ∨ NearestRow 0 c.u c.v ∨ NearestRow 303 c.u c.v) :
    clrOhno2014 c.emb o = ok (-EINVAL, Cct.emb ⟨0, 0, false, false⟩) := by
  obtain ⟨⟨b, m⟩, hs, h'⟩ := ohnoSearch_correct c
  have hm : m = 0 ∨ m = 303 := by
    rcases h' with ⟨h', -⟩ | ⟨h', hd⟩
    · exact Or.inl h'
    · rcases h with h | h | h
      · exact absurd hd (not_lt.mpr (h _ h'.1))
      · exact Or.inl (nearest_unique h' h)
      · exact Or.inr (nearest_unique h' h)
  obtain ⟨t, u', v', hr, ht, -, -⟩ := locus_rd (k := m) (by omega)
  obtain ⟨t1, u1, v1, hr1, ht1, -, -⟩ := locus_rd (k := 1) (by omega)
  obtain ⟨tl, ul, vl, hrl, htl, -, -⟩ := locus_rd (k := 302) (by omega)
  have hlen : ohno2014Table.length - 2 = 302 := by rw [locus_length]
  unfold clrOhno2014
  refine Eq.trans (if_neg (by simp [Uv60.emb, hu, hv])) ?_
  simp only [hs, ok_bind, hr, hr1, hlen, hrl]
  refine Eq.trans (if_pos ?_) ?_
  · simp only [lit_eq, Bool.or_eq_true, fin_lt, fin_gt]
    rw [← ht, ← ht1, ← htl]
    rcases hm with rfl | rfl
    · exact Or.inl (locusT_lt (by omega) (by omega))
    · exact Or.inr (locusT_lt (by omega) (by omega))
  · simp [Cct.emb]

/-- C72. Chromaticities whose nearest row is the first or the last one, and those farther than 1 from every row, are rejected with
`-EINVAL` and a cleared result. -/
theorem ohno2014_rejects (c : Uv60 ℝ) (o : Cct XR) (hu : c.uInv = false) (hv : c.vInv = false)
    (h : (∀ j < 304, 1 ≤ locusD2 j c.u c.v) ∨ NearestRow 0 c.u c.v ∨ NearestRow 303 c.u c.v) :
    clrOhno2014 c.emb o = ok (-EINVAL, Cct.emb ⟨0, 0, false, false⟩) :=
  ohno2014_rejects_core c o hu hv h

/-- C72. Every chromaticity has exactly one first nearest row, so that the theorems on rejection and on the result cover all. -/
theorem nearest_exists (u v : ℝ) : ∃! m, NearestRow m u v := by
  have hne : (Finset.range 304).Nonempty := ⟨0, by simp⟩
  obtain ⟨m0, hm0, hmin⟩ := Finset.exists_min_image (Finset.range 304) (fun j => locusD2 j u v) hne
  have hex : ∃ m, m < 304 ∧ ∀ j < 304, locusD2 m u v ≤ locusD2 j u v :=
    ⟨m0, Finset.mem_range.mp hm0, fun j hj => hmin j (Finset.mem_range.mpr hj)⟩
  classical
  refine ⟨Nat.find hex, ⟨(Nat.find_spec hex).1, (Nat.find_spec hex).2, ?_⟩, fun n hn => ?_⟩
  · intro j hj
    have := Nat.find_min hex hj
    by_contra hcon
    push Not at hcon
    exact this ⟨by have := (Nat.find_spec hex).1; omega, fun i hi => hcon.trans ((Nat.find_spec hex).2 i hi)⟩
  · refine nearest_unique hn ⟨(Nat.find_spec hex).1, (Nat.find_spec hex).2, ?_⟩
    intro j hj
    have := Nat.find_min hex hj
    by_contra hcon
    push Not at hcon
    exact this ⟨by have := (Nat.find_spec hex).1; omega, fun i hi => hcon.trans ((Nat.find_spec hex).2 i hi)⟩

theorem sextic_safe (k : List ℚ) (hk : k.length = 7) (a : XR) : ∃ x, sextic k a = ok x := by
  match k, hk with
  | [k0, k1, k2, k3, k4, k5, k6], _ => exact ⟨_, rfl⟩

/-- C72. The table is never read out of bounds: for every input, infinities and NaN included, the call returns. -/
theorem ohno2014_safe (c : Uv60 XR) (o : Cct XR) : ∃ r, clrOhno2014 c o = ok r := by
  unfold clrOhno2014
  split
  · exact ⟨_, rfl⟩
  have hs : sat (ohnoSearch c) fun (s : XR × ℕ) => s.2 < 304 := by
    have : sat (ohnoSearch c) fun (s : XR × ℕ) => s.2 = 0 ∨ s.2 < ohno2014Table.length := by
      unfold ohnoSearch
      refine forN_sat (fun n (s : XR × ℕ) => s.2 = 0 ∨ s.2 < n) (Or.inl rfl) ?_
      rintro i hi ⟨best, idx⟩ h
      obtain ⟨t, u', v', hr, -⟩ := locus_rd (k := i) (by rw [locus_length] at hi; exact hi)
      simp only [hr, ok_bind]
      split
      · exact (sat_ok _ _).mpr (Or.inr (by simp))
      · refine (sat_ok _ _).mpr ?_
        simp only at h ⊢
        omega
    obtain ⟨s, hs, h⟩ := this
    rw [locus_length] at h
    exact ⟨s, hs, by omega⟩
  obtain ⟨⟨b, m⟩, hs, hm⟩ := hs
  simp only at hm
  obtain ⟨t, u', v', hr, ht, -, -⟩ := locus_rd (k := m) hm
  obtain ⟨t1, u1, v1, hr1, ht1, -, -⟩ := locus_rd (k := 1) (by omega)
  obtain ⟨tl, ul, vl, hrl, htl, -, -⟩ := locus_rd (k := 302) (by omega)
  have hlen : ohno2014Table.length - 2 = 302 := by rw [locus_length]
  simp only [hs, ok_bind, hr, hr1, hlen, hrl]
  split
  · exact ⟨_, rfl⟩
  · rename_i hcond
    simp only [lit_eq, Bool.or_eq_true, fin_lt, fin_gt, not_or, not_lt] at hcond
    rw [← ht, ← ht1, ← htl] at hcond
    have h1 : 1 ≤ m := by
      by_contra h
      have : m = 0 := by omega
      subst this
      exact absurd (locusT_lt (i := 0) (j := 1) (by omega) (by omega)) (not_lt.mpr hcond.1)
    have h2 : m ≤ 302 := by
      by_contra h
      exact absurd (locusT_lt (i := 302) (j := m) (by omega) hm) (not_lt.mpr hcond.2)
    obtain ⟨tp, up, vp, hrp, -⟩ := locus_rd (k := m - 1) (by omega)
    obtain ⟨tn, un, vn, hrn, -⟩ := locus_rd (k := m + 1) (by omega)
    simp only [locus_rdI ((m : ℤ) - 1) (by omega : _ = ((m - 1 : ℕ) : ℤ)),
      locus_rdI ((m : ℤ) + 1) (by omega : _ = ((m + 1 : ℕ) : ℤ)), hrp, hrn, ok_bind]
    obtain ⟨x, hx⟩ := sextic_safe ohno2014Data (by decide)
      (CReal.acos ((c.u - lit 0.292) / CReal.sqrt ((c.u - lit 0.292) * (c.u - lit 0.292) + (c.v - lit 0.24) * (c.v - lit 0.24))))
    rw [hx]
    exact ⟨_, rfl⟩

/-! ### How far the temperature can be off -/

/-- Two points `p`, `n` and a third one: how much the squared distances can differ. -/
theorem dist_diff (pu pv nu nv u v : ℝ) :
    (((pu - u) ^ 2 + (pv - v) ^ 2) - ((nu - u) ^ 2 + (nv - v) ^ 2)) ^ 2 ≤
      ((nu - pu) ^ 2 + (nv - pv) ^ 2) * (2 * (((pu - u) ^ 2 + (pv - v) ^ 2) + ((nu - u) ^ 2 + (nv - v) ^ 2))) := by
  have h1 : (((pu - u) ^ 2 + (pv - v) ^ 2) - ((nu - u) ^ 2 + (nv - v) ^ 2)) =
      (pu - nu) * (pu + nu - 2 * u) + (pv - nv) * (pv + nv - 2 * v) := by ring
  have h2 : 2 * (((pu - u) ^ 2 + (pv - v) ^ 2) + ((nu - u) ^ 2 + (nv - v) ^ 2)) =
      (nu - pu) ^ 2 + (nv - pv) ^ 2 + ((pu + nu - 2 * u) ^ 2 + (pv + nv - 2 * v) ^ 2) := by ring
  rw [h1, h2]
  have h3 : ((pu - nu) * (pu + nu - 2 * u) + (pv - nv) * (pv + nv - 2 * v)) ^ 2 ≤
      ((nu - pu) ^ 2 + (nv - pv) ^ 2) * ((pu + nu - 2 * u) ^ 2 + (pv + nv - 2 * v) ^ 2) := by
    nlinarith [sq_nonneg ((pu - nu) * (pv + nv - 2 * v) - (pv - nv) * (pu + nu - 2 * u))]
  nlinarith [sq_nonneg ((nu - pu) ^ 2 + (nv - pv) ^ 2)]

theorem dist_tri (au av bu bv u v : ℝ) : (au - u) ^ 2 + (av - v) ^ 2 ≤ 2 * ((bu - u) ^ 2 + (bv - v) ^ 2) + 2 * ((au - bu) ^ 2 + (av - bv) ^ 2) := by
  nlinarith [sq_nonneg ((bu - u) - (au - bu)), sq_nonneg ((bv - v) - (av - bv))]

/-- The fraction at which the code interpolates is near one half. -/
theorem frac_near {m : ℕ} (h1 : 1 ≤ m) (h2 : m ≤ 302) {u v r e : ℝ} (he : 0 ≤ e) (hd : locusD2 m u v ≤ r)
    (hs : 2 * (4 * r + 2 * (locusD2 (m - 1) (locusU m) (locusV m) + locusD2 (m + 1) (locusU m) (locusV m))) ^ 3 ≤ e ^ 2 * locusL2 m) :
    |(locusD2 (m - 1) u v ^ 2 - locusD2 (m + 1) u v ^ 2) / (2 * locusL2 m)| ≤ e / 2 := by
  have hL := (locus_facts h1 h2).2.2.2.2.2.1
  have hdiff := dist_diff (locusU (m - 1)) (locusV (m - 1)) (locusU (m + 1)) (locusV (m + 1)) u v
  have ha := dist_tri (locusU (m - 1)) (locusV (m - 1)) (locusU m) (locusV m) u v
  have hb := dist_tri (locusU (m + 1)) (locusV (m + 1)) (locusU m) (locusV m) u v
  have a0 : 0 ≤ locusD2 (m - 1) u v := by unfold locusD2; positivity
  have b0 : 0 ≤ locusD2 (m + 1) u v := by unfold locusD2; positivity
  rw [← locusD2, ← locusD2, ← locusL2] at hdiff
  rw [← locusD2, ← locusD2, ← locusD2] at ha hb
  generalize locusD2 (m - 1) u v = a at *
  generalize locusD2 (m + 1) u v = b at *
  generalize locusD2 m u v = d at *
  generalize locusD2 (m - 1) (locusU m) (locusV m) = p at *
  generalize locusD2 (m + 1) (locusU m) (locusV m) = n at *
  generalize locusL2 m = L at *
  set S := 4 * r + 2 * (p + n) with hS
  have hsum : a + b ≤ S := by rw [hS]; linarith
  have hS0 : 0 ≤ S := by linarith
  have key : (a ^ 2 - b ^ 2) ^ 2 ≤ (e * L) ^ 2 := by
    have e1 : (a ^ 2 - b ^ 2) ^ 2 = (a - b) ^ 2 * (a + b) ^ 2 := by ring
    have h3 : (a - b) ^ 2 * (a + b) ^ 2 ≤ L * (2 * (a + b)) * (a + b) ^ 2 := mul_le_mul_of_nonneg_right hdiff (by positivity)
    have h4 : (a + b) ^ 3 ≤ S ^ 3 := pow_le_pow_left₀ (by positivity) hsum 3
    rw [e1]
    calc (a - b) ^ 2 * (a + b) ^ 2 ≤ L * (2 * (a + b)) * (a + b) ^ 2 := h3
      _ = L * (2 * (a + b) ^ 3) := by ring
      _ ≤ L * (2 * S ^ 3) := mul_le_mul_of_nonneg_left (by linarith) hL.le
      _ ≤ L * (e ^ 2 * L) := mul_le_mul_of_nonneg_left hs hL.le
      _ = (e * L) ^ 2 := by ring
  have := abs_le_of_sq_le_sq key (by positivity)
  rw [abs_div, abs_of_pos (by linarith : 0 < 2 * L), div_le_iff₀ (by linarith)]
  calc |a ^ 2 - b ^ 2| ≤ e * L := this
    _ = e / 2 * (2 * L) := by ring

/-- C102. For a chromaticity within 0.03 of its nearest row (Duv up to about 0.03) the reported temperature lies between those of the
neighbours of that row, hence within 1.02 percent of the temperature of the row. -/
theorem ohno2014_near (c : Uv60 ℝ) (o : Cct XR) (hu : c.uInv = false) (hv : c.vInv = false) (m : ℕ)
    (hm : NearestRow m c.u c.v) (hd : locusD2 m c.u c.v ≤ 0.03 ^ 2) (h1 : 1 ≤ m) (h2 : m ≤ 302) :
    ∃ r : Cct ℝ, clrOhno2014 c.emb o = ok (0, r.emb) ∧ locusT (m - 1) ≤ r.cct ∧ r.cct ≤ locusT (m + 1) ∧
      |r.cct - locusT m| ≤ 0.0102 * locusT m ∧ r.cctInv = false ∧ r.duvInv = false := by
  obtain ⟨f0, f1, f2, f3, f4, -, f6, -⟩ := locus_facts h1 h2
  have hfr := frac_near h1 h2 (e := 1) (r := 0.03 ^ 2) (by norm_num) hd (by
    refine le_trans (le_of_eq ?_) (f6.trans (le_of_eq ?_))
    · norm_num
    · ring)
  refine ⟨_, ohno2014_correct_partial c o hu hv m hm (hd.trans_lt (by norm_num)) h1 h2, ?_⟩
  simp only
  generalize (locusD2 (m - 1) c.u c.v ^ 2 - locusD2 (m + 1) c.u c.v ^ 2) / (2 * locusL2 m) = x at hfr
  obtain ⟨x0, x1⟩ := abs_le.mp hfr
  have g1 : locusT (m - 1) ≤ locusT (m - 1) + (locusT (m + 1) - locusT (m - 1)) * (1 / 2 + x) := by
    have : 0 ≤ (locusT (m + 1) - locusT (m - 1)) * (1 / 2 + x) := mul_nonneg (by linarith) (by linarith)
    linarith
  have g2 : locusT (m - 1) + (locusT (m + 1) - locusT (m - 1)) * (1 / 2 + x) ≤ locusT (m + 1) := by
    have : (locusT (m + 1) - locusT (m - 1)) * (1 / 2 + x) ≤ (locusT (m + 1) - locusT (m - 1)) * 1 :=
      mul_le_mul_of_nonneg_left (by linarith) (by linarith)
    linarith
  refine ⟨g1, g2, ?_, trivial, trivial⟩
  rw [abs_le]
  constructor <;> nlinarith

/-- C102. Close to the locus (within 0.005) the position of the chromaticity between the rows has no influence: the reported
temperature is the middle of the neighbours' up to 0.3 percent of their difference. -/
theorem ohno2014_insensitive (c : Uv60 ℝ) (o : Cct XR) (hu : c.uInv = false) (hv : c.vInv = false) (m : ℕ)
    (hm : NearestRow m c.u c.v) (hd : locusD2 m c.u c.v ≤ 0.005 ^ 2) (h1 : 1 ≤ m) (h2 : m ≤ 302) :
    ∃ r : Cct ℝ, clrOhno2014 c.emb o = ok (0, r.emb) ∧
      |r.cct - (locusT (m - 1) + locusT (m + 1)) / 2| ≤ 0.003 * (locusT (m + 1) - locusT (m - 1)) := by
  obtain ⟨f0, f1, f2, f3, f4, -, -, f7⟩ := locus_facts h1 h2
  have hfr := frac_near h1 h2 (e := 0.006) (r := 0.005 ^ 2) (by norm_num) hd (by
    refine le_trans (le_of_eq ?_) (f7.trans (le_of_eq ?_))
    · norm_num
    · norm_num)
  refine ⟨_, ohno2014_correct_partial c o hu hv m hm (hd.trans_lt (by norm_num)) h1 h2, ?_⟩
  simp only
  generalize (locusD2 (m - 1) c.u c.v ^ 2 - locusD2 (m + 1) c.u c.v ^ 2) / (2 * locusL2 m) = x at hfr
  have e : locusT (m - 1) + (locusT (m + 1) - locusT (m - 1)) * (1 / 2 + x) - (locusT (m - 1) + locusT (m + 1)) / 2 =
      (locusT (m + 1) - locusT (m - 1)) * x := by ring
  rw [e, abs_mul, abs_of_pos (by linarith), mul_comm]
  exact mul_le_mul_of_nonneg_right (hfr.trans (by norm_num)) (by linarith)

/-! ### Concrete chromaticities -/

/-- A chromaticity on the locus between the rows of 11913 K and 12032 K. -/
theorem witness_near : NearestRow 250 (0.18789845 : ℝ) 0.28786166 := by
  have := nearest_rat (m := 250) (u := 0.18789845) (v := 0.28786166) (by omega) (by decide +kernel) (by decide +kernel)
  push_cast at this
  exact this

/-- The hypotheses of `ohno2014_near` and `ohno2014_insensitive` are met. -/
example : locusD2 250 (0.18789845 : ℝ) 0.28786166 ≤ 0.005 ^ 2 := by
  have h := ratD2_cast 250 0.18789845 0.28786166
  push_cast at h
  rw [h]
  have : ratD2 250 0.18789845 0.28786166 ≤ 0.000025 := by decide +kernel
  have := (Rat.cast_le (K := ℝ)).mpr this
  push_cast at this
  norm_num at this ⊢
  linarith

/-- C102. Ohno's triangular solution is NOT what is computed (the code squares distances that are squares already): at a chromaticity
on the locus, almost half-way between two rows, the reported temperature is more than 50 K too low. -/
theorem ohno2014_not_triangular : ∃ (m : ℕ) (u v : ℝ) (r : Cct ℝ), NearestRow m u v ∧
    (∀ o, clrOhno2014 (Uv60.emb ⟨u, v, .deg2, .D65, false, false⟩) o = ok (0, r.emb)) ∧ r.cct + 50 < triangular m u v := by
  refine ⟨250, 0.18789845, 0.28786166, _, witness_near, fun o =>
    ohno2014_correct_partial ⟨0.18789845, 0.28786166, .deg2, .D65, false, false⟩ o rfl rfl 250 witness_near ?_ (by omega) (by omega), ?_⟩
  · have h := ratD2_cast 250 0.18789845 0.28786166
    push_cast at h
    simp only
    rw [h]
    have : ratD2 250 0.18789845 0.28786166 < 1 := by decide +kernel
    have := (Rat.cast_lt (K := ℝ)).mpr this
    push_cast at this
    exact this
  · have e1 : ohno2014Table.getD 249 (0, 0, 0) = (11795.074766, 0.18807052, 0.28826881) := by decide +kernel
    have e2 : ohno2014Table.getD 251 (0, 0, 0) = (12032.155768, 0.18783868, 0.28771962) := by decide +kernel
    simp only [triangular, locusL2, locusD2, locusT, locusU, locusV, Nat.reduceSub, Nat.reduceAdd, e1, e2]
    norm_num

/-- C102. Far from the locus the reported temperature need not lie between those of the neighbours of the nearest row. -/
theorem ohno2014_far : ∃ (m : ℕ) (u v : ℝ) (r : Cct ℝ), NearestRow m u v ∧ 1 ≤ m ∧
    (∀ o, clrOhno2014 (Uv60.emb ⟨u, v, .deg2, .D65, false, false⟩) o = ok (0, r.emb)) ∧ r.cct < locusT (m - 1) := by
  have hw : NearestRow 110 (0.03 : ℝ) 0.96 := by
    have := nearest_rat (m := 110) (u := 0.03) (v := 0.96) (by omega) (by decide +kernel) (by decide +kernel)
    push_cast at this
    exact this
  refine ⟨110, 0.03, 0.96, _, hw, by omega, fun o =>
    ohno2014_correct_partial ⟨0.03, 0.96, .deg2, .D65, false, false⟩ o rfl rfl 110 hw ?_ (by omega) (by omega), ?_⟩
  · have h := ratD2_cast 110 0.03 0.96
    push_cast at h
    simp only
    rw [h]
    have : ratD2 110 0.03 0.96 < 1 := by decide +kernel
    have := (Rat.cast_lt (K := ℝ)).mpr this
    push_cast at this
    exact this
  · have e1 : ohno2014Table.getD 109 (0, 0, 0) = (2928.925793, 0.25315617, 0.34854293) := by decide +kernel
    have e2 : ohno2014Table.getD 111 (0, 0, 0) = (2987.797201, 0.25100666, 0.34775114) := by decide +kernel
    simp only [locusL2, locusD2, locusT, locusU, locusV, Nat.reduceSub, Nat.reduceAdd, e1, e2]
    norm_num

/-- Chromaticities of both rejected kinds. -/
example : NearestRow 0 (0.46 : ℝ) 0.35 ∧ NearestRow 303 (0.18 : ℝ) 0.26 ∧ ∀ j < 304, 1 ≤ locusD2 j 2 2 := by
  have h1 := nearest_rat (m := 0) (u := 0.46) (v := 0.35) (by omega) (by decide +kernel) (by decide +kernel)
  have h2 := nearest_rat (m := 303) (u := 0.18) (v := 0.26) (by omega) (by decide +kernel) (by decide +kernel)
  have h3 : ∀ j < 304, 1 ≤ ratD2 j 2 2 := by decide +kernel
  push_cast at h1 h2
  refine ⟨h1, h2, fun j hj => ?_⟩
  have := ratD2_cast j 2 2
  push_cast at this
  rw [this]
  exact_mod_cast h3 j hj

/-! ### The other methods and the dispatcher (C103) -/

/-- C103. `zsl_clr_conv_uv60_cct` with McCamy's method: the cubic in the inverse slope of the line to the epicentre (0.3320, 0.1858) of
the xy diagram. Duv is not computed and flagged; the flag of the temperature is left as it was. -/
theorem mccamy_correct (c : Uv60 ℝ) (o : Cct XR) (hu : c.uInv = false) (hv : c.vInv = false) (x y n : ℝ)
    (hD : 2 * c.u - 8 * c.v + 4 ≠ 0) (hx : x = 3 * c.u / (2 * c.u - 8 * c.v + 4)) (hy : y = 2 * c.v / (2 * c.u - 8 * c.v + 4))
    (hy' : y ≠ 0.1858) (hn : n = (x - 0.3320) / (0.1858 - y)) :
    clrUv60Cct .mccamy c.emb o = ok (0, ⟨fin (449 * n ^ 3 + 3525 * n ^ 2 + 6823.3 * n + 5520.33), fin 0, o.cctInv, true⟩) := by
  have hc := uv60_xyy_correct c hD
  have e1 : ((0.3320 : ℚ) : ℝ) = 0.3320 := by norm_num
  have e2 : ((0.1858 : ℚ) : ℝ) = 0.1858 := by norm_num
  have p3 : CReal.pow (fin n) (fin 3) = fin (n ^ 3) := by
    rw [← fin_pow_nat]
    norm_num
  have p2 : CReal.pow (fin n) (fin 2) = fin (n ^ 2) := by
    rw [← fin_pow_nat]
    norm_num
  unfold clrUv60Cct clrMccamy
  refine Eq.trans (if_neg (by simp [Uv60.emb, hu, hv])) ?_
  simp only [hc, Xyy.emb, ← hx, ← hy, lit_eq, fin_sub, e1, e2]
  rw [fin_div (by intro h; apply hy'; linarith), ← hn]
  simp only [Rat.cast_ofNat, p3, p2, fin_mul, fin_add, Rat.cast_zero]
  norm_num

/-- C103. Every method rejects a chromaticity flagged as invalid and flags the temperature and Duv. -/
theorem cct_rejects (method : CctMethod) (c : Uv60 XR) (o : Cct XR) (h : c.uInv = true ∨ c.vInv = true) :
    clrUv60Cct method c o = ok (-EINVAL, { o with cctInv := true, duvInv := true }) := by
  cases method <;> exact if_pos h

/-- C103. A method that is none of the three falls back to that of Ohno (2014). -/
theorem cct_fallback (c : Uv60 XR) (o : Cct XR) : clrUv60Cct .other c o = clrUv60Cct .ohno2014 c o := rfl

/-- The polar angle about (0.292, 0.24), between 0 and π. -/
noncomputable def focusAngle (u v : ℝ) : ℝ :=
  let t := Real.arctan ((v - 0.24) / (u - 0.292))
  if 0 ≤ t then t else t + 3.14159265358979323846

/-- The temperature of the method of Ohno (2011) before the last correction. -/
noncomputable def ohnoRaw (u v : ℝ) : ℝ :=
  let a := focusAngle u v
  let lbb := poly6 (ohno2011Data.getD 0 []) a
  let duv := focusDist u v - lbb
  if a < 2.54 then 1 / poly6 (ohno2011Data.getD 1 []) a -
      poly6 (ohno2011Data.getD 3 []) a * (lbb + 0.01) / focusDist u v * duv / 0.01
  else 1 / poly6 (ohno2011Data.getD 2 []) a -
      poly6 (ohno2011Data.getD 4 []) a * (lbb + 0.01) / focusDist u v * duv / 0.01

/-- C103. `zsl_clr_conv_uv60_cct` with the method of Ohno (2011), wherever its intermediate values are numbers: the polynomials in the
angle about (0.292, 0.24), and the correction in the logarithm of the raw temperature, whose form depends on the side of the locus. -/
theorem ohno2011_correct (c : Uv60 ℝ) (o : Cct XR) (hu : c.uInv = false) (hv : c.vInv = false) (a duv T : ℝ) (hne : c.u ≠ 0.292)
    (ha : a = focusAngle c.u c.v) (hduv : duv = focusDist c.u c.v - poly6 (ohno2011Data.getD 0 []) a)
    (hp : (if a < 2.54 then poly6 (ohno2011Data.getD 1 []) a else poly6 (ohno2011Data.getD 2 []) a) ≠ 0)
    (hT : T = ohnoRaw c.u c.v) (hT0 : 0 < T) :
    clrUv60Cct .ohno2011 c.emb o = ok (0, Cct.emb ⟨T - (if 0 ≤ duv then poly6 (ohno2011Data.getD 5 []) (Real.logb 10 T)
      else poly6 (ohno2011Data.getD 6 []) (Real.logb 10 T) * (duv / 0.03) ^ 2), duv, false, false⟩) := by
  have hpos : 0 < (c.u - 0.292) ^ 2 + (c.v - 0.24) ^ 2 := by
    have : 0 < (c.u - 0.292) ^ 2 := by have := sub_ne_zero.mpr hne; positivity
    positivity
  have hF : 0 < focusDist c.u c.v := Real.sqrt_pos.mpr hpos
  have eF : (c.u - 0.292) * (c.u - 0.292) + (c.v - 0.24) * (c.v - 0.24) = (c.u - 0.292) ^ 2 + (c.v - 0.24) ^ 2 := by ring
  have e1 : ((0.292 : ℚ) : ℝ) = 0.292 := by norm_num
  have e2 : ((0.24 : ℚ) : ℝ) = 0.24 := by norm_num
  have e3 : ((2.54 : ℚ) : ℝ) = 2.54 := by norm_num
  have e4 : ((0.01 : ℚ) : ℝ) = 0.01 := by norm_num
  have e5 : ((0.03 : ℚ) : ℝ) = 0.03 := by norm_num
  have e6 : ((3.14159265358979323846 : ℚ) : ℝ) = 3.14159265358979323846 := by norm_num
  have p2 : ∀ x : ℝ, CReal.pow (fin x) (fin 2) = fin (x ^ 2) := by
    intro x
    rw [← fin_pow_nat]
    norm_num
  have hrow : ∀ k < 7, rd ohno2011Data k = ok (ohno2011Data.getD k []) ∧ (ohno2011Data.getD k []).length = 7 := by
    intro k hk
    interval_cases k <;> exact ⟨rfl, rfl⟩
  obtain ⟨r0, l0⟩ := hrow 0 (by omega)
  obtain ⟨r1, l1⟩ := hrow 1 (by omega)
  obtain ⟨r2, l2⟩ := hrow 2 (by omega)
  obtain ⟨r3, l3⟩ := hrow 3 (by omega)
  obtain ⟨r4, l4⟩ := hrow 4 (by omega)
  obtain ⟨r5, l5⟩ := hrow 5 (by omega)
  obtain ⟨r6, l6⟩ := hrow 6 (by omega)
  unfold clrUv60Cct clrOhno2011
  refine Eq.trans (if_neg (by simp [Uv60.emb, hu, hv])) ?_
  have x1 : (Uv60.emb c).u = fin c.u := rfl
  have x2 : (Uv60.emb c).v = fin c.v := rfl
  have hat : CReal.atan ((c.emb.v - lit 0.24) / (c.emb.u - lit 0.292)) = fin (Real.arctan ((c.v - 0.24) / (c.u - 0.292))) := by
    rw [x1, x2, lit_eq, lit_eq, e1, e2, fin_sub, fin_sub, fin_div (sub_ne_zero.mpr hne), fin_atan]
  have hang : (if CReal.ge (CReal.atan ((c.emb.v - lit 0.24) / (c.emb.u - lit 0.292))) (lit 0) = true then
      CReal.atan ((c.emb.v - lit 0.24) / (c.emb.u - lit 0.292))
      else CReal.atan ((c.emb.v - lit 0.24) / (c.emb.u - lit 0.292)) + lit 3.14159265358979323846) = fin a := by
    rw [hat, ha, focusAngle, lit_eq, lit_eq, Rat.cast_zero, e6, fin_add]
    simp only [fin_ge]
    split <;> rfl
  dsimp only
  rw [hang]
  simp only [lit_eq, x1, x2, fin_sub, fin_mul, fin_add, e1, e2, eF, e3, e4, e5, Rat.cast_zero]
  rw [fin_sqrt (by positivity), ← focusDist]
  simp only [r0, ok_bind]
  simp only [sextic_eq _ l0, ok_bind, fin_add, fin_sub, ← hduv]
  have hraw : (if CReal.lt (fin a) (fin 2.54) then do
        let r1 ← rd ohno2011Data 1
        let p1 ← sextic r1 (fin a)
        let r3 ← rd ohno2011Data 3
        let p3 ← sextic r3 (fin a)
        pure (fin ((1 : ℚ) : ℝ) / p1, p3 * fin (poly6 (ohno2011Data.getD 0 []) a + 0.01) / fin (focusDist c.u c.v) * fin duv / fin 0.01)
      else do
        let r2 ← rd ohno2011Data 2
        let p2 ← sextic r2 (fin a)
        let r4 ← rd ohno2011Data 4
        let p4 ← sextic r4 (fin a)
        pure (fin ((1 : ℚ) : ℝ) / p2, p4 * fin (poly6 (ohno2011Data.getD 0 []) a + 0.01) / fin (focusDist c.u c.v) * fin duv / fin 0.01)
        : Out (XR × XR)) = (if a < 2.54 then ok (fin (1 / poly6 (ohno2011Data.getD 1 []) a),
            fin (poly6 (ohno2011Data.getD 3 []) a * (poly6 (ohno2011Data.getD 0 []) a + 0.01) / focusDist c.u c.v * duv / 0.01))
          else ok (fin (1 / poly6 (ohno2011Data.getD 2 []) a),
            fin (poly6 (ohno2011Data.getD 4 []) a * (poly6 (ohno2011Data.getD 0 []) a + 0.01) / focusDist c.u c.v * duv / 0.01))) := by
    simp only [fin_lt]
    split
    · rename_i h
      rw [if_pos h] at hp
      simp only [r1, r3, ok_bind, sextic_eq _ l1, sextic_eq _ l3, pure_eq, fin_mul, Rat.cast_one]
      rw [fin_div hp, fin_div hF.ne', fin_mul, fin_div (by norm_num)]
    · rename_i h
      rw [if_neg h] at hp
      simp only [r2, r4, ok_bind, sextic_eq _ l2, sextic_eq _ l4, pure_eq, fin_mul, Rat.cast_one]
      rw [fin_div hp, fin_div hF.ne', fin_mul, fin_div (by norm_num)]
  have hfin : ∀ t1 d1 : ℝ, t1 - d1 = T → (do
      let dtc2 ← (if CReal.ge (fin duv) (fin 0) then do
          let r5 ← rd ohno2011Data 5
          sextic r5 (CReal.log10 (fin t1 - fin d1))
        else do
          let r6 ← rd ohno2011Data 6
          let p6 ← sextic r6 (CReal.log10 (fin t1 - fin d1))
          pure (p6 * CReal.pow (fin duv / fin 0.03) (fin ((2 : ℚ) : ℝ))) : Out XR)
      pure (0, (⟨fin t1 - fin d1 - dtc2, fin duv, false, false⟩ : Cct XR)) : Out (ℤ × Cct XR)) =
      ok (0, Cct.emb ⟨T - (if 0 ≤ duv then poly6 (ohno2011Data.getD 5 []) (Real.logb 10 T)
      else poly6 (ohno2011Data.getD 6 []) (Real.logb 10 T) * (duv / 0.03) ^ 2), duv, false, false⟩) := by
    intro t1 d1 h
    simp only [fin_sub, h, fin_log10 hT0, fin_ge, Cct.emb]
    split
    · simp only [r5, ok_bind, sextic_eq _ l5, pure_eq, fin_sub]
    · simp only [r6, ok_bind, sextic_eq _ l6, pure_eq]
      rw [fin_div (by norm_num), Rat.cast_ofNat, p2, fin_mul, fin_sub]
  refine Eq.trans (congrArg (fun x => x >>= _) hraw) ?_
  have hT' := hT
  rw [ohnoRaw, ← ha] at hT'
  simp only [← hduv] at hT'
  split
  · rename_i h
    rw [if_pos h] at hT'
    rw [ok_bind]
    exact hfin _ _ hT'.symm
  · rename_i h
    rw [if_neg h] at hT'
    rw [ok_bind]
    exact hfin _ _ hT'.symm

/-- A white near D65 meets the hypotheses of `mccamy_correct`. -/
example : (2 * 0.1978 - 8 * 0.3122 + 4 : ℝ) ≠ 0 ∧ 2 * 0.3122 / (2 * 0.1978 - 8 * 0.3122 + 4 : ℝ) ≠ 0.1858 := by
  constructor <;> norm_num

theorem quarter_pi_pow (n : ℕ) : (0.785398 : ℝ) ^ n ≤ (Real.pi / 4) ^ n ∧ (Real.pi / 4) ^ n ≤ (0.785399 : ℝ) ^ n := by
  have h1 := Real.pi_gt_d6
  have h2 := Real.pi_lt_d6
  exact ⟨pow_le_pow_left₀ (by norm_num) (by linarith) n, pow_le_pow_left₀ (by positivity) (by linarith) n⟩

/-- The polynomials of Ohno (2011) at 45 degrees: a black body of between 1250 K and 1300 K. -/
theorem ohno2011_at_45 : 0.13 < poly6 (ohno2011Data.getD 0 []) (Real.pi / 4) ∧
    1 / 1300 < poly6 (ohno2011Data.getD 1 []) (Real.pi / 4) ∧ poly6 (ohno2011Data.getD 1 []) (Real.pi / 4) < 1 / 1250 := by
  obtain ⟨a1, b1⟩ := quarter_pi_pow 1
  obtain ⟨a2, b2⟩ := quarter_pi_pow 2
  obtain ⟨a3, b3⟩ := quarter_pi_pow 3
  obtain ⟨a4, b4⟩ := quarter_pi_pow 4
  obtain ⟨a5, b5⟩ := quarter_pi_pow 5
  obtain ⟨a6, b6⟩ := quarter_pi_pow 6
  have r0 : ohno2011Data.getD 0 [] =
    [(-1.77348e-1), 1.115559, (-1.5008606), 9.750013e-1, (-3.307009e-1), 5.6061400e-2, (-3.7146000e-3)] := rfl
  have r1 : ohno2011Data.getD 1 [] =
    [5.308409e-4, 2.1595434e-3, (-4.3534788e-3), 3.6196568e-3, (-1.589747e-3), 3.5700160e-4, (-3.2325500e-5)] := rfl
  have p0 : (Real.pi / 4) ^ 0 = 1 := pow_zero _
  rw [r0, r1]
  simp only [poly6, Finset.sum_range_succ, Finset.sum_range_zero, List.getD_cons_zero, List.getD_cons_succ, p0]
  generalize (Real.pi / 4) ^ 1 = x1 at *
  generalize (Real.pi / 4) ^ 2 = x2 at *
  generalize (Real.pi / 4) ^ 3 = x3 at *
  generalize (Real.pi / 4) ^ 4 = x4 at *
  generalize (Real.pi / 4) ^ 5 = x5 at *
  generalize (Real.pi / 4) ^ 6 = x6 at *
  norm_num at a1 b1 a2 b2 a3 b3 a4 b4 a5 b5 a6 b6 ⊢
  refine ⟨?_, ?_, ?_⟩ <;> linarith

/-- C103. A chromaticity that meets the hypotheses of `ohno2011_correct`: the point of the locus at 45 degrees about (0.292, 0.24). -/
theorem ohno2011_meets : ∃ u v : ℝ, u ≠ 0.292 ∧ focusAngle u v = Real.pi / 4 ∧
    focusDist u v = poly6 (ohno2011Data.getD 0 []) (focusAngle u v) ∧
    (if focusAngle u v < 2.54 then poly6 (ohno2011Data.getD 1 []) (focusAngle u v) else
      poly6 (ohno2011Data.getD 2 []) (focusAngle u v)) ≠ 0 ∧ 1250 < ohnoRaw u v ∧ ohnoRaw u v < 1300 := by
  obtain ⟨h1, h2, h3⟩ := ohno2011_at_45
  set L := poly6 (ohno2011Data.getD 0 []) (Real.pi / 4) with hL
  have hL0 : 0 < L := by linarith
  have hs : 0 < Real.sqrt 2 := by positivity
  set h := L / Real.sqrt 2 with hh
  have h0 : 0 < h := by positivity
  have ang : focusAngle (0.292 + h) (0.24 + h) = Real.pi / 4 := by
    have : ((0.24 + h - 0.24) / (0.292 + h - 0.292) : ℝ) = 1 := by
      rw [add_sub_cancel_left, add_sub_cancel_left, div_self h0.ne']
    rw [focusAngle, this, Real.arctan_one, if_pos (by positivity)]
  have dist : focusDist (0.292 + h) (0.24 + h) = L := by
    rw [focusDist, add_sub_cancel_left, add_sub_cancel_left]
    have : h ^ 2 + h ^ 2 = L ^ 2 := by
      rw [hh, div_pow, Real.sq_sqrt (by norm_num)]
      ring
    rw [this, Real.sqrt_sq hL0.le]
  have hlt : Real.pi / 4 < 2.54 := by
    have := Real.pi_lt_d6
    norm_num at this ⊢
    linarith
  have raw : ohnoRaw (0.292 + h) (0.24 + h) = 1 / poly6 (ohno2011Data.getD 1 []) (Real.pi / 4) := by
    simp only [ohnoRaw, ang, dist, if_pos hlt, ← hL]
    simp
  have hp : 0 < poly6 (ohno2011Data.getD 1 []) (Real.pi / 4) := by linarith
  refine ⟨0.292 + h, 0.24 + h, by linarith, ang, ?_, ?_, ?_, ?_⟩
  · rw [dist, ang]
  · rw [ang, if_pos hlt]
    exact hp.ne'
  · rw [raw, lt_div_iff₀ hp]
    linarith
  · rw [raw, div_lt_iff₀ hp]
    linarith

end Verif
