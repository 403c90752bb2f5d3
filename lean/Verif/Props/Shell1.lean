import Verif.Model.Shell
import Verif.Props.Attitude
import Verif.Props.Color2
import Verif.Props.Color5

/-!
# The shell commands (C122)

`parse` is the conversion of a word to a number. Where it matters the words are assumed to be read as finite numbers.
-/

namespace Verif

open Out XR

/-- The lowest and highest altitude (m) accepted by the command, from the limits in the library and in the command. -/
def AltOk (alt : ℝ) : Prop := 0 ≤ alt ∧ alt ≤ 10000

/-- C122. `lat2g <lat> <altitude>` for a point on the northern hemisphere prints the gravity there. -/
theorem sh_lat2g_north_partial (parse : String → XR) (c a b : String) (lat alt : ℝ) (hh : a ≠ "help") (ha : parse a = fin lat)
    (hb : parse b = fin alt) (h0 : 0 < lat) (h1 : lat ≤ 90) (h2 : AltOk alt) :
    shLat2g parse [c, a, b] = ok (0, [.gravity (fin (gravity lat alt))]) := by
  have hg := grav_lat_alt_correct lat alt
  rw [if_pos ⟨h2.1, by linarith, h1⟩] at hg
  have h3 := h2.1
  have h4 := h2.2
  simp [shLat2g, rd, Out.ok_bind, Out.pure_eq, hh, ha, hb, hg, XR.lit_eq, not_le.2 h0, not_lt.2 h4, show ¬alt < -500 by linarith]

/-- C122. Points south of the equator, and on it, are refused by `lat2g`, although the library knows the gravity there. -/
theorem sh_lat2g_south (parse : String → XR) (c a b : String) (lat alt : ℝ) (hh : a ≠ "help") (ha : parse a = fin lat)
    (h0 : lat ≤ 0) (h1 : -90 ≤ lat) (h2 : AltOk alt) :
    shLat2g parse [c, a, b] = ok (-EINVAL, [.invalidArg a]) ∧ gravLatAlt (fin lat) (fin alt) = (0, fin (gravity lat alt)) := by
  refine ⟨?_, ?_⟩
  · simp [shLat2g, rd, Out.ok_bind, Out.pure_eq, hh, ha, XR.lit_eq, h0, shInvalidArg]
  · rw [grav_lat_alt_correct, if_pos ⟨h2.1, h1, by linarith⟩]

/-- C122. Altitudes between -500 m and 0, which the command means to accept, are refused by the library; the command says so. -/
theorem sh_lat2g_below_sea (parse : String → XR) (c a b : String) (lat alt : ℝ) (hh : a ≠ "help") (ha : parse a = fin lat)
    (hb : parse b = fin alt) (h0 : 0 < lat) (h1 : -500 ≤ alt) (h2 : alt < 0) :
    shLat2g parse [c, a, b] = ok (-EINVAL, [.badCode (-EINVAL)]) := by
  have hg := grav_lat_alt_correct lat alt
  rw [if_neg (by rintro ⟨h, -⟩; linarith)] at hg
  simp [shLat2g, rd, Out.ok_bind, Out.pure_eq, hh, ha, hb, hg, XR.lit_eq, not_le.2 h0, show ¬10000 < alt by linarith, not_lt.2 h1, shRcCode, EINVAL]

/-- C122. Latitudes beyond the pole, and other altitudes, are refused. -/
theorem sh_lat2g_refused (parse : String → XR) (c a b : String) (lat alt : ℝ) (hh : a ≠ "help") (ha : parse a = fin lat)
    (hb : parse b = fin alt) (h : 90 < lat ∨ 10000 < alt ∨ alt < -500) :
    ∃ l, shLat2g parse [c, a, b] = ok (-EINVAL, [l]) ∧ (l = .badCode (-EINVAL) ∨ l = .invalidArg a ∨ l = .invalidArg b) := by
  by_cases h0 : lat ≤ 0
  · exact ⟨.invalidArg a, by simp [shLat2g, rd, Out.ok_bind, Out.pure_eq, hh, ha, XR.lit_eq, h0, shInvalidArg], Or.inr (Or.inl rfl)⟩
  · by_cases h1 : 10000 < alt ∨ alt < -500
    · refine ⟨.invalidArg b, ?_, Or.inr (Or.inr rfl)⟩
      simp [shLat2g, rd, Out.ok_bind, Out.pure_eq, hh, ha, hb, XR.lit_eq, h0, h1, shInvalidArg]
    · refine ⟨.badCode (-EINVAL), ?_, Or.inl rfl⟩
      have hg := grav_lat_alt_correct lat alt
      rw [if_neg (by rintro ⟨-, -, h3⟩; rcases h with h | h; · linarith
                     · exact h1 h)] at hg
      simp [shLat2g, rd, Out.ok_bind, Out.pure_eq, hh, ha, hb, hg, XR.lit_eq, h0, h1, shRcCode, EINVAL]

/-- C122. The number of words: without arguments or with `help` the usage is printed; a missing or surplus argument is refused before
anything is read as a number. No call reads beyond the words. -/
theorem sh_lat2g_words (parse : String → XR) (c a b d : String) (l : List String) :
    shLat2g parse [c] = ok (0, [.help]) ∧ shLat2g parse (c :: "help" :: l) = ok (0, [.help]) ∧
    (a ≠ "help" → shLat2g parse [c, a] = ok (-EINVAL, [.missingArg "altitude"])) ∧
    (a ≠ "help" → shLat2g parse (c :: a :: b :: d :: l) = ok (-EINVAL, [.invalidArg d])) ∧
    (∀ w, w ≠ [] → shLat2g parse w ≠ ub) := by
  refine ⟨by simp [shLat2g, Out.ok_bind, Out.pure_eq], by simp [shLat2g, rd, Out.ok_bind, Out.pure_eq], fun h => ?_, fun h => ?_, fun w hw => ?_⟩
  · simp [shLat2g, rd, Out.ok_bind, Out.pure_eq, h, shMissingArg]
  · simp [shLat2g, rd, Out.ok_bind, Out.pure_eq, h, shInvalidArg]
  · match w, hw with
    | [_], _ => simp [shLat2g, Out.ok_bind, Out.pure_eq]
    | [_, a], _ =>
      by_cases h : a = "help" <;> simp [shLat2g, rd, Out.ok_bind, Out.pure_eq, h]
    | [_, a, b], _ =>
      by_cases h : a = "help"
      · simp [shLat2g, rd, Out.ok_bind, Out.pure_eq, h]
      · simp only [shLat2g, rd, Out.ok_bind, Out.pure_eq]
        simp
        split_ifs <;> simp
    | _ :: a :: _ :: _ :: _, _ =>
      by_cases h : a = "help" <;> simp [shLat2g, rd, Out.ok_bind, Out.pure_eq, h]

/-- Non-vacuity: the example in the usage text, and its mirror image. -/
example (parse : String → XR) (ha : parse "41.3851" = fin 41.3851) (hb : parse "12.0" = fin 12) (hc : parse "-41.3851" = fin (-41.3851)) :
    shLat2g parse ["lat2g", "41.3851", "12.0"] = ok (0, [.gravity (fin (gravity 41.3851 12))]) ∧
    shLat2g parse ["lat2g", "-41.3851", "12.0"] = ok (-EINVAL, [.invalidArg "-41.3851"]) :=
  ⟨sh_lat2g_north_partial parse _ _ _ _ _ (by decide) ha hb (by norm_num) (by norm_num) ⟨by norm_num, by norm_num⟩,
    (sh_lat2g_south parse _ _ "12.0" _ 12 (by decide) hc (by norm_num) (by norm_num) ⟨by norm_num, by norm_num⟩).1⟩

/-! ### Colour temperature -/

/-- The linear sRGB values of a black body at `T` kelvin, before clipping. -/
noncomputable def bodyRgb (T : ℝ) : Fin 3 → ℝ :=
  (ccm 0).mulVec ![glow .deg2 (·.1) T / glow .deg2 (·.2.1) T, 1, glow .deg2 (·.2.2) T / glow .deg2 (·.2.1) T]

theorem kelvin_u32 {x : ℝ} (h0 : 0 ≤ x) (h1 : x < 4294967296) : realToU32 (fin x) = ok ⌊x⌋₊ := by
  unfold realToU32
  have ht : CReal.trunc (fin x) = some ⌊x⌋ := by
    change XR.trunc (fin x) = _
    unfold XR.trunc
    simp [h0]
  rw [ht]
  have h2 : (0 : ℤ) ≤ ⌊x⌋ := Int.floor_nonneg.2 h0
  have h3 : ⌊x⌋ < 4294967296 := Int.floor_lt.2 (by exact_mod_cast h1)
  simp only
  rw [if_pos ⟨h2, h3⟩, Int.floor_toNat]

theorem kelvin_u32_big {x : ℝ} (h1 : 4294967296 ≤ x) : realToU32 (fin x) = ub := by
  unfold realToU32
  have ht : CReal.trunc (fin x) = some ⌊x⌋ := by
    change XR.trunc (fin x) = _
    unfold XR.trunc
    simp [show (0 : ℝ) ≤ x by linarith]
  rw [ht]
  have h3 : 4294967296 ≤ ⌊x⌋ := Int.le_floor.2 (by exact_mod_cast h1)
  simp only
  rw [if_neg (by omega)]

open scoped Classical in
/-- C122. `ct2rgb <T>` prints the temperature without its fraction and the three channels, each the integer part of 255 times the
clipped linear value, and a gamut warning exactly if one of them is out of gamut. -/
theorem sh_ct2rgb_correct (cap : Bool) (junk : ℕ → XR) (parse : String → XR) (c a : String) (l : List String) (T : ℝ) (hh : a ≠ "help")
    (ha : parse a = fin T) (h0 : 0 < T) (h1 : T < 4294967296) :
    shCt2rgb cap junk parse (c :: a :: l) = ok (0, [.rgb8 ⌊T⌋₊ ⌊255 * clip (bodyRgb T 0)⌋₊ ⌊255 * clip (bodyRgb T 1)⌋₊ ⌊255 * clip (bodyRgb T 2)⌋₊] ++
      if OutOfGamut (bodyRgb T 0) ∨ OutOfGamut (bodyRgb T 1) ∨ OutOfGamut (bodyRgb T 2) then
        [.gamut (decide (OutOfGamut (bodyRgb T 0))) (decide (OutOfGamut (bodyRgb T 1))) (decide (OutOfGamut (bodyRgb T 2)))] else []) := by
  unfold shCt2rgb
  rw [rgbccm_get_correct 0 (by norm_num)]
  have h8 := (ct_rgb_correct cap junk T h0.ne' .deg2 (ccm 0) [] ⟨fin 0, fin 0, fin 0, fin 0, false, false, false, false⟩
    ⟨0, 0, 0, 0, false, false, false, false⟩).2.1
  rw [rgb8_correct] at h8
  simp only [Out.ok_bind, rd, List.getElem?_cons_succ, List.getElem?_cons_zero]
  simp only [hh, ha, beq_iff_eq, if_false]
  rw [if_neg (by simp [XR.lit_eq, h0]), h8]
  simp only [Out.ok_bind, kelvin_u32 h0.le h1]
  change _ = ok (0, [ShLine.rgb8 ⌊T⌋₊ ⌊255 * clip (bodyRgb T 0)⌋₊ ⌊255 * clip (bodyRgb T 1)⌋₊ ⌊255 * clip (bodyRgb T 2)⌋₊] ++ _)
  by_cases hg : OutOfGamut (bodyRgb T 0) ∨ OutOfGamut (bodyRgb T 1) ∨ OutOfGamut (bodyRgb T 2)
  · rw [if_pos hg]
    refine Eq.trans (if_pos ?_) rfl
    simp only [Bool.or_eq_true, decide_eq_true_eq]
    exact or_assoc.2 hg
  · rw [if_neg hg]
    refine Eq.trans (if_neg ?_) rfl
    simp only [Bool.or_eq_true, decide_eq_true_eq]
    exact fun h => hg (or_assoc.1 h)

open scoped Classical in
/-- C122. `ct2rgbf <T>` prints the linear values, clipped only when bound capping is configured, with the same warning. -/
theorem sh_ct2rgbf_correct (cap : Bool) (junk : ℕ → XR) (parse : String → XR) (c a : String) (l : List String) (T : ℝ) (hh : a ≠ "help")
    (ha : parse a = fin T) (h0 : 0 < T) (h1 : T < 4294967296) :
    shCt2rgbf cap junk parse (c :: a :: l) = ok (0, [.rgbf ⌊T⌋₊ (fin (if cap then clip (bodyRgb T 0) else bodyRgb T 0))
        (fin (if cap then clip (bodyRgb T 1) else bodyRgb T 1)) (fin (if cap then clip (bodyRgb T 2) else bodyRgb T 2))] ++
      if OutOfGamut (bodyRgb T 0) ∨ OutOfGamut (bodyRgb T 1) ∨ OutOfGamut (bodyRgb T 2) then
        [.gamut (decide (OutOfGamut (bodyRgb T 0))) (decide (OutOfGamut (bodyRgb T 1))) (decide (OutOfGamut (bodyRgb T 2)))] else []) := by
  unfold shCt2rgbf
  rw [rgbccm_get_correct 0 (by norm_num)]
  have h8 := (ct_rgb_correct cap junk T h0.ne' .deg2 (ccm 0) [] ⟨lit 0, lit 0, lit 0, lit 0, false, false, false, false⟩
    ⟨0, 0, 0, 0, false, false, false, false⟩).1
  rw [rgbf_correct] at h8
  simp only [Out.ok_bind, rd, List.getElem?_cons_succ, List.getElem?_cons_zero]
  simp only [hh, ha, beq_iff_eq, if_false]
  rw [if_neg (by simp [XR.lit_eq, h0]), h8]
  simp only [Out.ok_bind, kelvin_u32 h0.le h1]
  by_cases hg : OutOfGamut (bodyRgb T 0) ∨ OutOfGamut (bodyRgb T 1) ∨ OutOfGamut (bodyRgb T 2)
  · rw [if_pos hg]
    refine Eq.trans (if_pos ?_) rfl
    simp only [Bool.or_eq_true, decide_eq_true_eq]
    exact or_assoc.2 hg
  · rw [if_neg hg]
    refine Eq.trans (if_neg ?_) rfl
    simp only [Bool.or_eq_true, decide_eq_true_eq]
    exact fun h => hg (or_assoc.1 h)

/-- C122. Temperatures that are zero or negative are refused by both commands; the usage is printed on request. -/
theorem sh_ct2rgb_refused (cap : Bool) (junk : ℕ → XR) (parse : String → XR) (c a : String) (l : List String) (T : ℝ) (hh : a ≠ "help")
    (ha : parse a = fin T) (h0 : T ≤ 0) :
    shCt2rgb cap junk parse (c :: a :: l) = ok (-EINVAL, [.invalidArg a]) ∧ shCt2rgbf cap junk parse (c :: a :: l) = ok (-EINVAL, [.invalidArg a]) ∧
    shCt2rgb cap junk parse (c :: "help" :: l) = ok (0, [.help]) ∧ shCt2rgbf cap junk parse (c :: "help" :: l) = ok (0, [.help]) := by
  unfold shCt2rgb shCt2rgbf
  rw [rgbccm_get_correct 0 (by norm_num)]
  refine ⟨?_, ?_, ?_, ?_⟩ <;> simp [Out.ok_bind, Out.pure_eq, rd, hh, ha, XR.lit_eq, h0, shInvalidArg]

/-- C122. A temperature of 2^32 K or more is accepted, but converting it to an `unsigned int` for printing is undefined. -/
theorem sh_ct2rgb_huge (cap : Bool) (junk : ℕ → XR) (parse : String → XR) (c a : String) (l : List String) (T : ℝ) (hh : a ≠ "help")
    (ha : parse a = fin T) (h0 : 4294967296 ≤ T) :
    shCt2rgb cap junk parse (c :: a :: l) = ub ∧ shCt2rgbf cap junk parse (c :: a :: l) = ub := by
  have hp : 0 < T := by linarith
  have h := ct_rgb_correct cap junk T hp.ne' .deg2 (ccm 0) [] ⟨lit 0, lit 0, lit 0, lit 0, false, false, false, false⟩
    ⟨0, 0, 0, 0, false, false, false, false⟩
  have h8 := h.2.1
  have hf := h.1
  rw [rgb8_correct] at h8
  rw [rgbf_correct] at hf
  unfold shCt2rgb shCt2rgbf
  rw [rgbccm_get_correct 0 (by norm_num)]
  simp only [Out.ok_bind, rd, List.getElem?_cons_succ, List.getElem?_cons_zero]
  simp only [hh, ha, beq_iff_eq, if_false]
  rw [if_neg (by simp [XR.lit_eq, hp]), if_neg (by simp [XR.lit_eq, hp]), h8, hf]
  simp only [Out.ok_bind, kelvin_u32_big h0]
  exact ⟨rfl, rfl⟩

/-- C122. `zsl version` succeeds whatever its arguments and prints one line, which is the version string of the build. -/
theorem sh_version_correct {R : Type} [CReal R] (v : String) (argv : List String) :
    (shVersion v argv : Int × List (ShLine R)).1 = 0 ∧
      (shVersion v argv : Int × List (ShLine R)).2.map (fun l => match l with | .version s => some s | _ => none) = [some v] :=
  ⟨rfl, rfl⟩

/-- Non-vacuity: 5600 K, the example in the usage text. -/
example (junk : ℕ → XR) (parse : String → XR) (ha : parse "5600.0" = fin 5600) :
    ∃ l, shCt2rgb false junk parse ["ct2rgb", "5600.0"] = ok (0, .rgb8 5600 ⌊255 * clip (bodyRgb 5600 0)⌋₊ ⌊255 * clip (bodyRgb 5600 1)⌋₊
      ⌊255 * clip (bodyRgb 5600 2)⌋₊ :: l) := by
  have h := sh_ct2rgb_correct false junk parse "ct2rgb" "5600.0" [] 5600 (by decide) ha (by norm_num) (by norm_num)
  have h2 : ⌊(5600 : ℝ)⌋₊ = 5600 := by norm_num
  rw [h2] at h
  exact ⟨_, h⟩

end Verif
