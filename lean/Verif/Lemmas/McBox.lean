import Verif.Lemmas.LocusTrip

/-!
# McCamy's formula along the Planckian locus

Every segment of the table is cut into four pieces; a box around each piece contains the colours of the black bodies between its ends
(`locus_chord`). The corners of the box bound the slope `n` of McCamy's formula, and the cubic is monotone in `n`.
Lengths are in units of 2.5e-11, temperatures in units of 1e-6 K, slopes in units of 1e-6.
-/

namespace Verif.MC

open LT

/-- Numerator and denominator of `-n`, times 10000. -/
def pU (u v : ℤ) : ℤ := 30000 * u - 3320 * (2 * u - 8 * v + 160000000000)
def qU (u v : ℤ) : ℤ := 20000 * v - 1858 * (2 * u - 8 * v + 160000000000)

/-- The cubic, times 1e20. -/
def cub (a : ℤ) : ℤ := 44900 * (a * a * a) + 352500000000 * (a * a) + 682330000000000000 * a + 552033000000000000000000

structure Box where
  u0 : ℤ
  u1 : ℤ
  v0 : ℤ
  v1 : ℤ
  a : ℤ
  b : ℤ

def slope (u v : ℤ) : ℤ := (-(pU u v) * 1000000) / qU u v

def mkBox (Ui Uj Vi Vj : ℤ) (k : ℤ) : Box :=
  let L := |Uj - Ui| + |Vj - Vi|
  let ca := (4 - k) * Ui + k * Uj
  let cb := (3 - k) * Ui + (k + 1) * Uj
  let da := (4 - k) * Vi + k * Vj
  let db := (3 - k) * Vi + (k + 1) * Vj
  let u0 := 100 * min ca cb - 52 * L
  let u1 := 100 * max ca cb + 52 * L
  let v0 := 100 * min da db - 52 * L
  let v1 := 100 * max da db + 52 * L
  ⟨u0, u1, v0, v1, min (min (slope u0 v0) (slope u0 v1)) (min (slope u1 v0) (slope u1 v1)),
    max (max (slope u0 v0) (slope u0 v1)) (max (slope u1 v0) (slope u1 v1)) + 1⟩

def cornerOk (u v a b : ℤ) : Bool := decide (0 < qU u v) && decide (a * qU u v ≤ -(pU u v) * 1000000) && decide (-(pU u v) * 1000000 ≤ b * qU u v) &&
  decide (0 < 2 * u - 8 * v + 160000000000)

def boxOk (x : Box) : Bool := cornerOk x.u0 x.v0 x.a x.b && cornerOk x.u0 x.v1 x.a x.b && cornerOk x.u1 x.v0 x.a x.b && cornerOk x.u1 x.v1 x.a x.b

def bx (i : ℕ) (k : ℤ) : Box := mkBox (tU.getD i 0 : ℕ) (tU.getD (i + 1) 0 : ℕ) (tV.getD i 0 : ℕ) (tV.getD (i + 1) 0 : ℕ) k

/-- The cubic is at least `(1000 + e1) / 1000` and at most `(1000 + e2) / 1000` of the temperature. -/
def inOk (e1 e2 : ℤ) (i : ℕ) (k : ℤ) : Bool :=
  let x := bx i k
  let Ti : ℤ := (tT.getD i 0 : ℕ)
  let Tj : ℤ := (tT.getD (i + 1) 0 : ℕ)
  boxOk x && decide (-1280000 ≤ x.a) && decide (100000000000000000000 * (1000 + e1) * (4 * Ti * Tj) ≤ cub x.a * ((3 - k) * Tj + (k + 1) * Ti) * 1000000000) &&
    decide (cub x.b * ((4 - k) * Tj + k * Ti) * 1000000000 ≤ 100000000000000000000 * (1000 + e2) * (4 * Ti * Tj))

/-- On the falling branch of the cubic: it is at least `(1000 + e) / 1000` of the temperature. -/
def offOk (e : ℤ) (i : ℕ) (k : ℤ) : Bool :=
  let x := bx i k
  let Ti : ℤ := (tT.getD i 0 : ℕ)
  let Tj : ℤ := (tT.getD (i + 1) 0 : ℕ)
  boxOk x && decide (-3900000 ≤ x.a) && decide (x.b ≤ -1300000) &&
    decide (100000000000000000000 * (1000 + e) * (4 * Ti * Tj) ≤ cub x.b * ((3 - k) * Tj + (k + 1) * Ti) * 1000000000)

theorem in_good : ∀ i < 166, ∀ k < 4, inOk (-14) 8 (i + 60) (k : ℕ) = true := by decide +kernel
theorem in_fair : ∀ i < 29, ∀ k < 4, inOk (-41) 8 (i + 226) (k : ℕ) = true := by decide +kernel
theorem in_all : ∀ i < 242, ∀ k < 4, inOk (-148) 8 (i + 60) (k : ℕ) = true := by decide +kernel
theorem in_low : ∀ i < 21, ∀ k < 4, inOk (-148) (-82) (i + 281) (k : ℕ) = true := by decide +kernel
theorem in_off : ∀ i < 18, ∀ k < 4, offOk 500 (i + 1) (k : ℕ) = true := by decide +kernel

/-! ### From the corners to the box -/

theorem line_nonneg {c e x0 x1 x : ℝ} (h0 : 0 ≤ c * x0 + e) (h1 : 0 ≤ c * x1 + e) (hx0 : x0 ≤ x) (hx1 : x ≤ x1) : 0 ≤ c * x + e := by
  rcases le_total 0 c with hc | hc
  · nlinarith
  · nlinarith

theorem plane_nonneg {c d e u0 u1 v0 v1 u v : ℝ} (h00 : 0 ≤ c * u0 + d * v0 + e) (h01 : 0 ≤ c * u0 + d * v1 + e) (h10 : 0 ≤ c * u1 + d * v0 + e)
    (h11 : 0 ≤ c * u1 + d * v1 + e) (hu0 : u0 ≤ u) (hu1 : u ≤ u1) (hv0 : v0 ≤ v) (hv1 : v ≤ v1) : 0 ≤ c * u + d * v + e := by
  have a := line_nonneg (c := c) (e := d * v0 + e) (x0 := u0) (x1 := u1) (x := u) (by linarith) (by linarith) hu0 hu1
  have b := line_nonneg (c := c) (e := d * v1 + e) (x0 := u0) (x1 := u1) (x := u) (by linarith) (by linarith) hu0 hu1
  have := line_nonneg (c := d) (e := c * u + e) (x0 := v0) (x1 := v1) (x := v) (by linarith) (by linarith) hv0 hv1
  linarith

/-- The slope of McCamy's formula, from the coordinates. -/
noncomputable def slopeR (u v : ℝ) : ℝ := -(3 * u - 0.3320 * (2 * u - 8 * v + 4)) / (2 * v - 0.1858 * (2 * u - 8 * v + 4))

theorem corner_spec {u v a b : ℤ} (h : cornerOk u v a b = true) :
    1 ≤ qU u v ∧ a * qU u v ≤ -(pU u v) * 1000000 ∧ -(pU u v) * 1000000 ≤ b * qU u v ∧ 1 ≤ 2 * u - 8 * v + 160000000000 := by
  simp only [cornerOk, Bool.and_eq_true, decide_eq_true_eq] at h
  obtain ⟨⟨⟨h1, h2⟩, h3⟩, h4⟩ := h
  exact ⟨h1, h2, h3, h4⟩

theorem box_spec {x : Box} (h : boxOk x = true) {u v : ℝ} (hu0 : (x.u0 : ℝ) ≤ u * 40000000000) (hu1 : u * 40000000000 ≤ x.u1)
    (hv0 : (x.v0 : ℝ) ≤ v * 40000000000) (hv1 : v * 40000000000 ≤ x.v1) :
    0 < 2 * v - 0.1858 * (2 * u - 8 * v + 4) ∧ 0 < 2 * u - 8 * v + 4 ∧ (x.a : ℝ) / 1000000 ≤ slopeR u v ∧ slopeR u v ≤ (x.b : ℝ) / 1000000 := by
  obtain ⟨u0, u1, v0, v1, a, b⟩ := x
  simp only [boxOk, Bool.and_eq_true] at h
  obtain ⟨⟨⟨c1, c2⟩, c3⟩, c4⟩ := h
  dsimp only at hu0 hu1 hv0 hv1 ⊢
  have cast : ∀ {u v : ℤ}, cornerOk u v a b = true → (1 : ℝ) ≤ 20000 * v - 1858 * (2 * u - 8 * v + 160000000000) ∧
      (a : ℝ) * (20000 * v - 1858 * (2 * u - 8 * v + 160000000000)) ≤ -(30000 * u - 3320 * (2 * u - 8 * v + 160000000000)) * 1000000 ∧
      -(30000 * (u : ℝ) - 3320 * (2 * u - 8 * v + 160000000000)) * 1000000 ≤ b * (20000 * v - 1858 * (2 * u - 8 * v + 160000000000)) ∧
      (1 : ℝ) ≤ 2 * u - 8 * v + 160000000000 := by
    intro u v h
    obtain ⟨p1, p2, p3, p4⟩ := corner_spec h
    unfold qU pU at *
    exact ⟨by exact_mod_cast p1, by exact_mod_cast p2, by exact_mod_cast p3, by exact_mod_cast p4⟩
  obtain ⟨p1, p2, p3, p4⟩ := cast c1
  obtain ⟨q1, q2, q3, q4⟩ := cast c2
  obtain ⟨r1, r2, r3, r4⟩ := cast c3
  obtain ⟨s1, s2, s3, s4⟩ := cast c4
  have hq := plane_nonneg (c := -3716) (d := 34864) (e := -1858 * 160000000000 - 1) (by linarith) (by linarith) (by linarith) (by linarith) hu0 hu1 hv0 hv1
  have hd := plane_nonneg (c := 2) (d := -8) (e := 160000000000 - 1) (by linarith) (by linarith) (by linarith) (by linarith) hu0 hu1 hv0 hv1
  have ha := plane_nonneg (c := -(30000 - 6640) * 1000000 + a * 3716) (d := -26560 * 1000000 - a * 34864)
    (e := 3320 * 160000000000 * 1000000 + a * (1858 * 160000000000)) (by linarith) (by linarith) (by linarith) (by linarith) hu0 hu1 hv0 hv1
  have hb := plane_nonneg (c := (30000 - 6640) * 1000000 - b * 3716) (d := 26560 * 1000000 + b * 34864)
    (e := -(3320 * 160000000000 * 1000000) - b * (1858 * 160000000000)) (by linarith) (by linarith) (by linarith) (by linarith) hu0 hu1 hv0 hv1
  have Q : 0 < 2 * v - 0.1858 * (2 * u - 8 * v + 4) := by norm_num at hq ⊢; linarith
  refine ⟨Q, by linarith, ?_, ?_⟩
  · rw [slopeR, le_div_iff₀ Q]
    norm_num at ha ⊢
    linarith
  · rw [slopeR, div_le_iff₀ Q]
    norm_num at hb ⊢
    linarith

/-- McCamy's cubic. -/
noncomputable def cubic (n : ℝ) : ℝ := 449 * n ^ 3 + 3525 * n ^ 2 + 6823.3 * n + 5520.33

theorem cubic_cub (a : ℤ) : cubic ((a : ℝ) / 1000000) = (cub a : ℝ) / 100000000000000000000 := by
  unfold cubic cub
  push_cast
  norm_num
  ring

theorem cubic_mono {x y : ℝ} (hx : -1.28 ≤ x) (h : x ≤ y) : cubic x ≤ cubic y := by
  have e : cubic y - cubic x = (y - x) * (449 * (y ^ 2 + y * x + x ^ 2) + 3525 * (y + x) + 6823.3) := by unfold cubic; ring
  have : 0 ≤ 449 * (y ^ 2 + y * x + x ^ 2) + 3525 * (y + x) + 6823.3 := by
    obtain ⟨p, rfl⟩ : ∃ p, x = -1.28 + p := ⟨x + 1.28, by ring⟩
    obtain ⟨q, rfl⟩ : ∃ q, y = -1.28 + p + q := ⟨y - (-1.28 + p), by ring⟩
    have hp : 0 ≤ p := by linarith
    have hq : 0 ≤ q := by linarith
    norm_num
    nlinarith [mul_nonneg hp hq, mul_nonneg hp hp, mul_nonneg hq hq]
  nlinarith [mul_nonneg (sub_nonneg.2 h) this]

theorem cubic_anti {x y : ℝ} (hx : -3.9 ≤ x) (h : x ≤ y) (hy : y ≤ -1.3) : cubic y ≤ cubic x := by
  have e : cubic x - cubic y = (y - x) * -(449 * (y ^ 2 + y * x + x ^ 2) + 3525 * (y + x) + 6823.3) := by unfold cubic; ring
  have : 449 * (y ^ 2 + y * x + x ^ 2) + 3525 * (y + x) + 6823.3 ≤ 0 := by
    have h1 : x ^ 2 ≤ -5.2 * x - 5.07 := by norm_num at *; nlinarith
    have h2 : y ^ 2 ≤ -5.2 * y - 5.07 := by norm_num at *; nlinarith
    have h3 : y * x ≤ (x ^ 2 + y ^ 2) / 2 := by nlinarith [sq_nonneg (x - y)]
    norm_num at *
    nlinarith
  nlinarith [mul_nonneg (sub_nonneg.2 h) (neg_nonneg.2 this)]

/-! ### From the box to the temperature -/

theorem abs_le_of_disc {x y g a b : ℝ} (h : x ^ 2 + y ^ 2 ≤ 0.13 ^ 2 * (a ^ 2 + b ^ 2)) (hg : g = |a| + |b|) : |x| ≤ 0.13 * g := by
  subst hg
  refine abs_le_of_sq_le_sq ?_ (by positivity)
  have : a ^ 2 + b ^ 2 ≤ (|a| + |b|) ^ 2 := by
    have := mul_nonneg (abs_nonneg a) (abs_nonneg b)
    nlinarith [sq_abs a, sq_abs b]
  nlinarith [sq_nonneg y]

theorem seg_bounds {a b t k : ℝ} (h0 : k ≤ 4 * t) (h1 : 4 * t ≤ k + 1) :
    min ((4 - k) * a + k * b) ((3 - k) * a + (k + 1) * b) ≤ 4 * ((1 - t) * a + t * b) ∧
      4 * ((1 - t) * a + t * b) ≤ max ((4 - k) * a + k * b) ((3 - k) * a + (k + 1) * b) := by
  rcases le_total a b with h | h
  · refine ⟨(min_le_left _ _).trans ?_, le_trans ?_ (le_max_right _ _)⟩ <;> nlinarith
  · refine ⟨(min_le_right _ _).trans ?_, le_trans ?_ (le_max_left _ _)⟩ <;> nlinarith

theorem in_box {Ui Uj Vi Vj k : ℤ} {t u v : ℝ} (h0 : (k : ℝ) ≤ 4 * t) (h1 : 4 * t ≤ k + 1)
    (h : (u - ((1 - t) * ((Ui : ℝ) / 100000000) + t * ((Uj : ℝ) / 100000000))) ^ 2 + (v - ((1 - t) * ((Vi : ℝ) / 100000000) + t * ((Vj : ℝ) / 100000000))) ^ 2 ≤
      0.13 ^ 2 * (((Uj : ℝ) / 100000000 - Ui / 100000000) ^ 2 + ((Vj : ℝ) / 100000000 - Vi / 100000000) ^ 2)) :
    ((mkBox Ui Uj Vi Vj k).u0 : ℝ) ≤ u * 40000000000 ∧ u * 40000000000 ≤ (mkBox Ui Uj Vi Vj k).u1 ∧
      ((mkBox Ui Uj Vi Vj k).v0 : ℝ) ≤ v * 40000000000 ∧ v * 40000000000 ≤ (mkBox Ui Uj Vi Vj k).v1 := by
  have ha : ∀ x y : ℝ, |x / 100000000 - y / 100000000| = |x - y| / 100000000 := by
    intro x y
    rw [← sub_div, abs_div]
    norm_num
  have e1 := abs_le_of_disc h rfl
  have e2 := abs_le_of_disc (a := (Uj : ℝ) / 100000000 - Ui / 100000000) (b := (Vj : ℝ) / 100000000 - Vi / 100000000)
    (x := v - ((1 - t) * ((Vi : ℝ) / 100000000) + t * ((Vj : ℝ) / 100000000))) (y := u - ((1 - t) * ((Ui : ℝ) / 100000000) + t * ((Uj : ℝ) / 100000000))) (by rw [add_comm]; exact h) rfl
  rw [ha, ha] at e1 e2
  obtain ⟨m1, m2⟩ := seg_bounds (a := (Ui : ℝ)) (b := Uj) h0 h1
  obtain ⟨m3, m4⟩ := seg_bounds (a := (Vi : ℝ)) (b := Vj) h0 h1
  rw [abs_le] at e1 e2
  unfold mkBox
  dsimp only
  push_cast
  generalize |(Uj : ℝ) - Ui| = p at *
  generalize |(Vj : ℝ) - Vi| = q at *
  generalize min ((4 - (k : ℝ)) * Ui + k * Uj) ((3 - (k : ℝ)) * Ui + (k + 1) * Uj) = r1 at *
  generalize max ((4 - (k : ℝ)) * Ui + k * Uj) ((3 - (k : ℝ)) * Ui + (k + 1) * Uj) = r2 at *
  generalize min ((4 - (k : ℝ)) * Vi + k * Vj) ((3 - (k : ℝ)) * Vi + (k + 1) * Vj) = r3 at *
  generalize max ((4 - (k : ℝ)) * Vi + k * Vj) ((3 - (k : ℝ)) * Vi + (k + 1) * Vj) = r4 at *
  norm_num at *
  refine ⟨by linarith [e1.1], by linarith [e1.2], by linarith [e2.1], by linarith [e2.2]⟩

/-- The colour of a black body and the box of its piece of the locus. -/
theorem body_box {T t : ℝ} {i : ℕ} {k : ℤ} (i1 : 1 ≤ i) (i2 : i ≤ 301) (t0 : 0 ≤ t) (t1 : t ≤ 1) (hT : 0 < T)
    (he : 1 / T = (1 - t) / locusT i + t / locusT (i + 1)) (k0 : (k : ℝ) ≤ 4 * t) (k1 : 4 * t ≤ k + 1) :
    ((bx i k).u0 : ℝ) ≤ gl xN T / gl dN T * 40000000000 ∧ gl xN T / gl dN T * 40000000000 ≤ (bx i k).u1 ∧
      ((bx i k).v0 : ℝ) ≤ gl yN T / gl dN T * 40000000000 ∧ gl yN T / gl dN T * 40000000000 ≤ (bx i k).v1 := by
  have h := locus_chord i1 i2 t0 t1 hT he
  rw [gap2, locusU_nat (by omega : i < 304), locusU_nat (by omega : i + 1 < 304), locusV_nat (by omega : i < 304), locusV_nat (by omega : i + 1 < 304)] at h
  generalize gl xN T / gl dN T = u at *
  generalize gl yN T / gl dN T = v at *
  unfold bx
  refine in_box (t := t) k0 k1 ?_
  simp only [Int.cast_natCast]
  exact h

/-- The temperatures of a piece. -/
theorem temp_piece {T t Ti Tj k : ℝ} (hT : 0 < T) (hi : 0 < Ti) (hij : Ti ≤ Tj) (he : 1 / T = (1 - t) / Ti + t / Tj) (k0 : k ≤ 4 * t) (k1 : 4 * t ≤ k + 1) :
    T * ((3 - k) * Tj + (k + 1) * Ti) ≤ 4 * Ti * Tj ∧ 4 * Ti * Tj ≤ T * ((4 - k) * Tj + k * Ti) := by
  have hj : 0 < Tj := hi.trans_le hij
  have e : Ti * Tj = T * ((1 - t) * Tj + t * Ti) := by
    field_simp at he
    linarith
  have h : 0 ≤ T * (Tj - Ti) := mul_nonneg hT.le (by linarith)
  constructor <;> nlinarith

theorem in_range {e1 e2 : ℤ} {T t : ℝ} {i : ℕ} {k : ℤ} (h : inOk e1 e2 i k = true) (i1 : 1 ≤ i) (i2 : i ≤ 301) (t0 : 0 ≤ t) (t1 : t ≤ 1) (hT : 0 < T)
    (he : 1 / T = (1 - t) / locusT i + t / locusT (i + 1)) (k0 : (k : ℝ) ≤ 4 * t) (k1 : 4 * t ≤ k + 1) (hk0 : 0 ≤ k) (hk3 : k ≤ 3)
    (he1 : 0 ≤ 1000 + e1) (he2 : 0 ≤ 1000 + e2) :
    0 < 2 * (gl yN T / gl dN T) - 0.1858 * (2 * (gl xN T / gl dN T) - 8 * (gl yN T / gl dN T) + 4) ∧
      0 < 2 * (gl xN T / gl dN T) - 8 * (gl yN T / gl dN T) + 4 ∧
      (1000 + e1) / 1000 * T ≤ cubic (slopeR (gl xN T / gl dN T) (gl yN T / gl dN T)) ∧
      cubic (slopeR (gl xN T / gl dN T) (gl yN T / gl dN T)) ≤ (1000 + e2) / 1000 * T := by
  unfold inOk at h
  dsimp only at h
  simp only [Bool.and_eq_true, decide_eq_true_eq] at h
  obtain ⟨⟨⟨hb, ha⟩, h1⟩, h2⟩ := h
  obtain ⟨b1, b2, b3, b4⟩ := body_box i1 i2 t0 t1 hT he k0 k1
  generalize gl xN T / gl dN T = u at *
  generalize gl yN T / gl dN T = v at *
  generalize bx i k = x at *
  obtain ⟨g1, g2, g3, g4⟩ := box_spec hb b1 b2 b3 b4
  refine ⟨g1, g2, ?_⟩
  have lt := locusT_lt (i := i) (j := i + 1) (by omega) (by omega)
  have p0 : 0 < locusT i := by
    have := locus_facts (m := i) i1 (by omega)
    exact this.1.trans this.2.1
  obtain ⟨w1, w2⟩ := temp_piece hT p0 lt.le he k0 k1
  rw [locusT_nat (by omega : i < 304), locusT_nat (by omega : i + 1 < 304)] at w1 w2
  rw [locusT_nat (by omega : i < 304)] at p0
  rw [locusT_nat (by omega : i < 304), locusT_nat (by omega : i + 1 < 304)] at lt
  clear he
  generalize tT.getD i 0 = Ti at *
  generalize tT.getD (i + 1) 0 = Tj at *
  have h1' : (100000000000000000000 : ℝ) * (1000 + e1) * (4 * Ti * Tj) ≤ cub x.a * ((3 - k) * Tj + (k + 1) * Ti) * 1000000000 := by exact_mod_cast h1
  have h2' : (cub x.b : ℝ) * ((4 - k) * Tj + k * Ti) * 1000000000 ≤ 100000000000000000000 * (1000 + e2) * (4 * Ti * Tj) := by exact_mod_cast h2
  have ha' : (-1280000 : ℝ) ≤ x.a := by exact_mod_cast ha
  have k0' : (0 : ℝ) ≤ k := by exact_mod_cast hk0
  have k3' : (k : ℝ) ≤ 3 := by exact_mod_cast hk3
  have pi : (0 : ℝ) < Ti := by linarith
  have pj : (0 : ℝ) < Tj := by linarith
  have d1 : (0 : ℝ) < (3 - k) * Tj + (k + 1) * Ti := by nlinarith
  have d2 : (0 : ℝ) < (4 - k) * Tj + k * Ti := by nlinarith
  have m1 := cubic_mono (by norm_num at *; linarith) g3
  have m2 := cubic_mono (by norm_num at *; linarith) g4
  rw [cubic_cub] at m1 m2
  constructor
  · refine le_trans ?_ m1
    have hw : T * ((3 - k) * Tj + (k + 1) * Ti) * 1000000 ≤ 4 * Ti * Tj := by linarith
    have hs : 0 ≤ 1000 + (e1 : ℝ) := by exact_mod_cast he1
    · have := mul_le_mul_of_nonneg_left hw (mul_nonneg (by norm_num : (0 : ℝ) ≤ 100000000000000000000) hs)
      have h3 := this.trans h1'
      rw [le_div_iff₀ (by norm_num)]
      have : ((1000 + (e1 : ℝ)) / 1000 * T * 100000000000000000000) * ((3 - k) * Tj + (k + 1) * Ti) ≤ cub x.a * ((3 - k) * Tj + (k + 1) * Ti) := by linarith
      exact le_of_mul_le_mul_right this d1
  · refine m2.trans ?_
    have hw : 4 * Ti * Tj ≤ T * ((4 - k) * Tj + k * Ti) * 1000000 := by linarith
    have hs : 0 ≤ 1000 + (e2 : ℝ) := by exact_mod_cast he2
    · have := mul_le_mul_of_nonneg_left hw (mul_nonneg (by norm_num : (0 : ℝ) ≤ 100000000000000000000) hs)
      have h3 := h2'.trans this
      rw [div_le_iff₀ (by norm_num)]
      have : cub x.b * ((4 - k) * Tj + k * Ti) ≤ ((1000 + (e2 : ℝ)) / 1000 * T * 100000000000000000000) * ((4 - k) * Tj + k * Ti) := by linarith
      exact le_of_mul_le_mul_right this d2

theorem off_range {e : ℤ} {T t : ℝ} {i : ℕ} {k : ℤ} (h : offOk e i k = true) (i1 : 1 ≤ i) (i2 : i ≤ 301) (t0 : 0 ≤ t) (t1 : t ≤ 1) (hT : 0 < T)
    (he : 1 / T = (1 - t) / locusT i + t / locusT (i + 1)) (k0 : (k : ℝ) ≤ 4 * t) (k1 : 4 * t ≤ k + 1) (hk0 : 0 ≤ k) (hk3 : k ≤ 3)
    (he1 : 0 ≤ 1000 + e) :
    0 < 2 * (gl yN T / gl dN T) - 0.1858 * (2 * (gl xN T / gl dN T) - 8 * (gl yN T / gl dN T) + 4) ∧
      0 < 2 * (gl xN T / gl dN T) - 8 * (gl yN T / gl dN T) + 4 ∧
      (1000 + e) / 1000 * T ≤ cubic (slopeR (gl xN T / gl dN T) (gl yN T / gl dN T)) := by
  unfold offOk at h
  dsimp only at h
  simp only [Bool.and_eq_true, decide_eq_true_eq] at h
  obtain ⟨⟨⟨hb, ha⟩, hb'⟩, h1⟩ := h
  obtain ⟨b1, b2, b3, b4⟩ := body_box i1 i2 t0 t1 hT he k0 k1
  generalize gl xN T / gl dN T = u at *
  generalize gl yN T / gl dN T = v at *
  generalize bx i k = x at *
  obtain ⟨g1, g2, g3, g4⟩ := box_spec hb b1 b2 b3 b4
  refine ⟨g1, g2, ?_⟩
  have lt := locusT_lt (i := i) (j := i + 1) (by omega) (by omega)
  have p0 : 0 < locusT i := by
    have := locus_facts (m := i) i1 (by omega)
    exact this.1.trans this.2.1
  obtain ⟨w1, -⟩ := temp_piece hT p0 lt.le he k0 k1
  rw [locusT_nat (by omega : i < 304), locusT_nat (by omega : i + 1 < 304)] at w1
  rw [locusT_nat (by omega : i < 304)] at p0
  rw [locusT_nat (by omega : i < 304), locusT_nat (by omega : i + 1 < 304)] at lt
  clear he
  generalize tT.getD i 0 = Ti at *
  generalize tT.getD (i + 1) 0 = Tj at *
  have h1' : (100000000000000000000 : ℝ) * (1000 + e) * (4 * Ti * Tj) ≤ cub x.b * ((3 - k) * Tj + (k + 1) * Ti) * 1000000000 := by exact_mod_cast h1
  have ha' : (-3900000 : ℝ) ≤ x.a := by exact_mod_cast ha
  have hb'' : (x.b : ℝ) ≤ -1300000 := by exact_mod_cast hb'
  have k0' : (0 : ℝ) ≤ k := by exact_mod_cast hk0
  have k3' : (k : ℝ) ≤ 3 := by exact_mod_cast hk3
  have pi : (0 : ℝ) < Ti := by linarith
  have pj : (0 : ℝ) < Tj := by linarith
  have d1 : (0 : ℝ) < (3 - k) * Tj + (k + 1) * Ti := by nlinarith
  have m1 := cubic_anti (x := slopeR u v) (by norm_num at *; linarith) g4 (by norm_num at *; linarith)
  rw [cubic_cub] at m1
  refine le_trans ?_ m1
  have hw : T * ((3 - k) * Tj + (k + 1) * Ti) * 1000000 ≤ 4 * Ti * Tj := by linarith
  have hs : 0 ≤ 1000 + (e : ℝ) := by exact_mod_cast he1
  have := mul_le_mul_of_nonneg_left hw (mul_nonneg (by norm_num : (0 : ℝ) ≤ 100000000000000000000) hs)
  have h3 := this.trans h1'
  rw [le_div_iff₀ (by norm_num)]
  have : ((1000 + (e : ℝ)) / 1000 * T * 100000000000000000000) * ((3 - k) * Tj + (k + 1) * Ti) ≤ cub x.b * ((3 - k) * Tj + (k + 1) * Ti) := by linarith
  exact le_of_mul_le_mul_right this d1

/-- The quarter of the segment. -/
theorem quarter {t : ℝ} (t0 : 0 ≤ t) (t1 : t ≤ 1) : ∃ k : ℕ, k < 4 ∧ (((k : ℕ) : ℤ) : ℝ) ≤ 4 * t ∧ 4 * t ≤ (((k : ℕ) : ℤ) : ℝ) + 1 := by
  rcases le_total (4 * t) 1 with h | h
  · exact ⟨0, by omega, by norm_num; linarith, by norm_num; linarith⟩
  rcases le_total (4 * t) 2 with h2 | h2
  · exact ⟨1, by omega, by norm_num; linarith, by norm_num; linarith⟩
  rcases le_total (4 * t) 3 with h3 | h3
  · exact ⟨2, by omega, by norm_num; linarith, by norm_num; linarith⟩
  · exact ⟨3, by omega, by norm_num; linarith, by norm_num; linarith⟩

end Verif.MC
