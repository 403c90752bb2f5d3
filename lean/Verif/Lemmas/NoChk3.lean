import Verif.Lemmas.NoChk2

/-!
# Checked and unchecked decompositions

The same as in Lemmas/NoChk2.lean for the vector functions and the decompositions that use them.
-/

set_option linter.unusedSectionVars false

namespace Verif.NoChkL

open Out

variable {R : Type} [CReal R]

/-! ### Vectors -/

theorem vadd_eq {v w x : Vec R} (h1 : v.sz = w.sz) (h2 : v.sz = x.sz) : NoChk.vecAdd v w x = vecAdd v w x := by
  unfold NoChk.vecAdd vecAdd
  rw [if_neg (by omega)]

theorem vsub_eq {v w x : Vec R} (h1 : v.sz = w.sz) (h2 : v.sz = x.sz) : NoChk.vecSub v w x = vecSub v w x := by
  unfold NoChk.vecSub vecSub
  rw [if_neg (by omega)]

theorem vdot_eq {v w : Vec R} {d : R} (h : v.sz = w.sz) : NoChk.vecDot v w d = vecDot v w d := by
  unfold NoChk.vecDot vecDot
  rw [if_neg (by omega)]

theorem vnorm_eq (v : Vec R) : NoChk.vecNorm v = vecNorm v := by
  unfold NoChk.vecNorm vecNorm NoChk.vecSumOfSqrs vecSumOfSqrs
  rw [vdot_eq rfl]

theorem vproject_eq {u v w : Vec R} (h1 : v.sz = w.sz) (h2 : v.sz = u.sz) : NoChk.vecProject u v w = vecProject u v w := by
  unfold NoChk.vecProject vecProject
  rw [if_neg (by omega)]
  refine bind_congr_ok rfl fun a _ => ?_
  refine bind_congr_ok (vdot_eq h2) fun b _ => ?_
  exact bind_congr_ok (vdot_eq rfl) fun c _ => rfl

theorem vprojectOnto_eq {u v : Vec R} (h : v.sz = u.sz) : NoChk.vecProjectOnto u v = vecProjectOnto u v := by
  unfold NoChk.vecProjectOnto vecProjectOnto
  rw [if_neg (by omega)]
  refine bind_congr_ok (vdot_eq h) fun b _ => ?_
  exact bind_congr_ok (vdot_eq rfl) fun c _ => rfl

theorem sz_add {v w x x' : Vec R} {rc : Int} (he : vecAdd v w x = ok (rc, x')) : x'.sz = x.sz := by
  unfold vecAdd at he
  by_cases h : v.sz ≠ w.sz ∨ v.sz ≠ x.sz
  · rw [if_pos h] at he
    cases he
    rfl
  · rw [if_neg h] at he
    obtain ⟨d, -, he⟩ := bind_ok he
    cases he
    rfl

theorem sz_sub {v w x x' : Vec R} {rc : Int} (he : vecSub v w x = ok (rc, x')) : x'.sz = x.sz := by
  unfold vecSub at he
  by_cases h : v.sz ≠ w.sz ∨ v.sz ≠ x.sz
  · rw [if_pos h] at he
    cases he
    rfl
  · rw [if_neg h] at he
    obtain ⟨d, -, he⟩ := bind_ok he
    cases he
    rfl

theorem sz_init {v v' : Vec R} {rc : Int} (he : vecInit v = ok (rc, v')) : v'.sz = v.sz := by
  unfold vecInit at he
  obtain ⟨d, -, he⟩ := bind_ok he
  cases he
  rfl

theorem sz_scalarMult {v v' : Vec R} {s : R} {rc : Int} (he : vecScalarMult v s = ok (rc, v')) : v'.sz = v.sz := by
  unfold vecScalarMult at he
  obtain ⟨d, -, he⟩ := bind_ok he
  cases he
  rfl

theorem sz_projectOnto {u v u' : Vec R} {rc : Int} (he : vecProjectOnto u v = ok (rc, u')) : u'.sz = u.sz := by
  unfold vecProjectOnto at he
  by_cases h : v.sz ≠ u.sz ∨ v.sz ≠ u.sz
  · rw [if_pos h] at he
    cases he
    rfl
  · rw [if_neg h] at he
    obtain ⟨⟨_, p⟩, -, he⟩ := bind_ok he
    obtain ⟨⟨_, t⟩, -, he⟩ := bind_ok he
    obtain ⟨⟨_, t⟩, hs, he⟩ := bind_ok he
    cases he
    exact sz_scalarMult hs

theorem toUnit_eq (v : Vec R) : NoChk.vecToUnit v = vecToUnit v := by
  unfold NoChk.vecToUnit vecToUnit
  rw [vnorm_eq]

/-! ### Orthogonal columns -/

theorem gramSchmidt_eq {junk : Nat → R} {m mort : Mtx R} (h : m.cols ≤ mort.cols) :
    NoChk.mtxGramSchmidt junk m mort = mtxGramSchmidt junk m mort := by
  unfold NoChk.mtxGramSchmidt mtxGramSchmidt
  by_cases h0 : m.rows = 0
  · rw [if_pos h0, if_pos h0]
  rw [if_neg h0, if_neg h0]
  have inner : ∀ t, t < m.cols → ∀ (v w q : Vec R) (mo : Mtx R), v.sz = m.rows → w.sz = m.rows → q.sz = m.rows →
      Shp mo mort.rows mort.cols → _ := fun t ht v w q mo hv hw hq hmo =>
    forN_congr_inv (n := t) (s := (w, q))
      (f := fun g (s : Vec R × Vec R) => (do
        let (w, q) := s
        let (_, wd) ← NoChk.mtxGetCol mo g w.data
        let (_, w) ← NoChk.vecProjectOnto { w with data := wd } v
        let (_, q) ← NoChk.vecAdd q w q
        return (w, q) : Out (Vec R × Vec R)))
      (g := fun g (s : Vec R × Vec R) => (do
        let (w, q) := s
        let (_, wd) ← mtxGetCol mo g w.data
        let (_, w) ← vecProjectOnto { w with data := wd } v
        let (_, q) ← vecAdd q w q
        return (w, q) : Out (Vec R × Vec R)))
      (fun _ s => s.1.sz = m.rows ∧ s.2.sz = m.rows) ⟨hw, hq⟩
      (by
        rintro g hg ⟨w, q⟩ ⟨hw, hq⟩
        refine bind_congr_ok (getCol_eq (by rw [hmo.2]; omega)) fun a _ => ?_
        obtain ⟨rc, wd⟩ := a
        refine bind_congr_ok (vprojectOnto_eq (u := ⟨w.sz, wd⟩) (hv.trans hw.symm)) fun b hb => ?_
        obtain ⟨rc, w'⟩ := b
        have hw' : w'.sz = m.rows := (sz_projectOnto hb).trans hw
        exact bind_congr_ok (vadd_eq (hq.trans hw'.symm) rfl) fun c _ => rfl)
      (by
        rintro g hg ⟨w, q⟩ s' ⟨hw, hq⟩ he
        obtain ⟨⟨_, wd⟩, -, he⟩ := bind_ok he
        obtain ⟨⟨_, w'⟩, hw', he⟩ := bind_ok he
        obtain ⟨⟨_, q'⟩, hq', he⟩ := bind_ok he
        cases he
        exact ⟨(sz_projectOnto hw').trans hw, (sz_add hq').trans hq⟩)
  refine bind_congr_ok (forN_congr_inv
    (fun _ s => s.1.sz = m.rows ∧ s.2.1.sz = m.rows ∧ s.2.2.1.sz = m.rows ∧ Shp s.2.2.2 mort.rows mort.cols)
    ⟨rfl, rfl, rfl, shp_self mort⟩ ?_ ?_).1 fun x _ => rfl
  · rintro t ht ⟨v, w, q, mo⟩ ⟨hv, hw, hq, hmo⟩
    refine bind_congr_ok rfl fun a ha => ?_
    obtain ⟨rc, q'⟩ := a
    have hq' : q'.sz = m.rows := (sz_init ha).trans hq
    refine bind_congr_ok (getCol_eq ht) fun b _ => ?_
    obtain ⟨rc, vd⟩ := b
    have inn := inner t ht ⟨v.sz, vd⟩ w q' mo hv hw hq' hmo
    refine bind_congr_ok inn.1 fun c hc => ?_
    obtain ⟨w', q''⟩ := c
    have hs := inn.2 _ hc
    refine bind_congr_ok (vsub_eq (v := ⟨v.sz, vd⟩) (x := ⟨v.sz, vd⟩) (hv.trans hs.2.symm) rfl) fun d hd => ?_
    obtain ⟨rc, v'⟩ := d
    exact bind_congr_ok (setCol_eq (by rw [hmo.2]; omega)) fun e _ => rfl
  · rintro t ht ⟨v, w, q, mo⟩ s' ⟨hv, hw, hq, hmo⟩ he
    obtain ⟨⟨_, q'⟩, hq', he⟩ := bind_ok he
    obtain ⟨⟨_, vd⟩, -, he⟩ := bind_ok he
    obtain ⟨⟨w', q''⟩, hc, he⟩ := bind_ok he
    obtain ⟨⟨_, v'⟩, hv', he⟩ := bind_ok he
    obtain ⟨⟨_, mo'⟩, hmo', he⟩ := bind_ok he
    cases he
    have hs := (inner t ht ⟨v.sz, vd⟩ w q' mo hv hw ((sz_init hq').trans hq) hmo).2 _ hc
    exact ⟨(sz_sub hv').trans hv, hs.1, hs.2, shp_setCol hmo hmo'⟩

theorem colsNorm_eq {junk : Nat → R} {m mn : Mtx R} (h : m.cols ≤ mn.cols) :
    NoChk.mtxColsNorm junk m mn = mtxColsNorm junk m mn := by
  unfold NoChk.mtxColsNorm mtxColsNorm
  by_cases h0 : m.rows = 0
  · rw [if_pos h0, if_pos h0]
  rw [if_neg h0, if_neg h0]
  refine bind_congr_ok (forN_congr_inv (fun _ s => Shp s.2 mn.rows mn.cols) (shp_self mn) ?_ ?_).1 fun x _ => rfl
  · rintro t ht ⟨v, mo⟩ hmo
    refine bind_congr_ok (getCol_eq ht) fun b _ => ?_
    obtain ⟨rc, vd⟩ := b
    refine bind_congr_ok (toUnit_eq _) fun c _ => ?_
    exact bind_congr_ok (setCol_eq (by rw [hmo.2]; omega)) fun e _ => rfl
  · rintro t ht ⟨v, mo⟩ s' hmo he
    obtain ⟨⟨_, vd⟩, -, he⟩ := bind_ok he
    obtain ⟨⟨_, v'⟩, -, he⟩ := bind_ok he
    obtain ⟨⟨_, mo'⟩, hmo', he⟩ := bind_ok he
    cases he
    exact shp_setCol hmo hmo'

/-! ### Cholesky factor -/

theorem cholesky_ok {x0 : R} {m l : Mtx R} {r : Int × Mtx R} (h : mtxCholesky x0 m l = ok r) (hr : r.1 ≠ -EINVAL) :
    NoChk.mtxCholesky x0 m l = ok r := by
  unfold mtxCholesky at h
  by_cases hsq : m.rows ≠ m.cols
  · rw [if_pos hsq] at h
    cases h
    exact absurd rfl hr
  rw [if_neg hsq] at h
  obtain ⟨asym, -, h⟩ := bind_ok h
  by_cases ha : asym = true
  · rw [if_pos ha] at h
    cases h
    exact absurd rfl hr
  rw [if_neg ha] at h
  by_cases h1 : m.rows ≠ l.rows
  · rw [if_pos h1] at h
    cases h
    exact absurd rfl hr
  rw [if_neg h1] at h
  by_cases h2 : m.cols ≠ l.cols
  · rw [if_pos h2] at h
    cases h
    exact absurd rfl hr
  rw [if_neg h2] at h
  rw [← h]
  unfold NoChk.mtxCholesky
  refine bind_congr_ok init_empty.1 fun a ha => ?_
  obtain ⟨rc, l'⟩ := a
  have hl : Shp l' m.cols m.cols := by
    have := init_empty.2 rc l' ha
    exact ⟨this.1.trans (by omega), this.2.trans (by omega)⟩
  refine bind_congr_ok (forN_congr_inv (fun _ s => Shp s.2.2 m.cols m.cols) hl ?_ ?_).1 fun x _ => rfl
  · rintro j hj ⟨x, y, l⟩ hs
    refine bind_congr_ok (forN_congr fun k hk s => ?_) fun a _ => ?_
    · exact bind_congr_ok (get_eq (by rw [hs.1]; exact hj) (by rw [hs.2]; omega)) fun b _ => rfl
    obtain ⟨sum, x⟩ := a
    refine bind_congr_ok (get_eq (by omega) hj) fun b _ => ?_
    obtain ⟨rc, x⟩ := b
    refine bind_congr_ok (set_eq (by rw [hs.1]; exact hj) (by rw [hs.2]; exact hj)) fun c hc => ?_
    obtain ⟨rc, l1⟩ := c
    have hl1 := shp_set hs hc
    refine (forN_congr_inv (fun _ s => Shp s.2.2 m.cols m.cols) hl1 ?_ ?_).1
    · rintro i hi ⟨x, y, l⟩ hs
      refine bind_congr_ok (forN_congr fun k hk s => ?_) fun a _ => ?_
      · refine bind_congr_ok (get_eq (by rw [hs.1]; exact hj) (by rw [hs.2]; omega)) fun b _ => ?_
        exact bind_congr_ok (get_eq (by rw [hs.1]; omega) (by rw [hs.2]; omega)) fun b _ => rfl
      obtain ⟨sum, x, y⟩ := a
      refine bind_congr_ok (get_eq (by rw [hs.1]; exact hj) (by rw [hs.2]; exact hj)) fun b _ => ?_
      refine bind_congr_ok (get_eq (by omega) hj) fun b _ => ?_
      exact bind_congr_ok (set_eq (by rw [hs.1]; omega) (by rw [hs.2]; exact hj)) fun b _ => rfl
    · rintro i hi ⟨x, y, l⟩ s' hs he
      obtain ⟨⟨_, _, _⟩, -, he⟩ := bind_ok he
      obtain ⟨⟨_, _⟩, -, he⟩ := bind_ok he
      obtain ⟨⟨_, _⟩, -, he⟩ := bind_ok he
      obtain ⟨⟨_, l2⟩, hl2, he⟩ := bind_ok he
      cases he
      exact shp_set hs hl2
  · rintro j hj ⟨x, y, l⟩ s' hs he
    obtain ⟨⟨_, _⟩, -, he⟩ := bind_ok he
    obtain ⟨⟨_, _⟩, -, he⟩ := bind_ok he
    obtain ⟨⟨_, l2⟩, hl2, he⟩ := bind_ok he
    refine forN_ok (fun s => Shp s.2.2 m.cols m.cols) (shp_set hs hl2) ?_ he
    rintro i hi ⟨x, y, l⟩ s' hs he
    obtain ⟨⟨_, _, _⟩, -, he⟩ := bind_ok he
    obtain ⟨⟨_, _⟩, -, he⟩ := bind_ok he
    obtain ⟨⟨_, _⟩, -, he⟩ := bind_ok he
    obtain ⟨⟨_, l2⟩, hl2, he⟩ := bind_ok he
    cases he
    exact shp_set hs hl2

/-! ### Balancing -/

theorem balance_eq {fuel : Nat} {junk : Nat → R} {m mout : Mtx R} (hr : mout.rows = m.rows) (hc : mout.cols = m.cols) :
    NoChk.mtxBalance fuel junk m mout = mtxBalance fuel junk m mout := by
  unfold NoChk.mtxBalance mtxBalance
  by_cases h0 : m.rows ≠ m.cols ∨ mout.rows ≠ mout.cols
  · rw [if_pos h0, if_pos h0]
  rw [if_neg h0, if_neg h0, if_neg (c := m.rows ≠ mout.rows) (by omega), if_neg (c := m.cols ≠ mout.cols) (by omega)]
  exact bind_congr_ok (copy_eq hr hc) fun a _ => rfl

theorem shp_balance {fuel : Nat} {junk : Nat → R} {m mout m' : Mtx R} {rc : Int} {r c : Nat} (h : Shp mout r c)
    (he : mtxBalance fuel junk m mout = ok (rc, m')) : Shp m' r c := by
  unfold mtxBalance at he
  by_cases h0 : m.rows ≠ m.cols ∨ mout.rows ≠ mout.cols
  · rw [if_pos h0] at he
    cases he
    exact h
  rw [if_neg h0] at he
  by_cases h1 : m.rows ≠ mout.rows
  · rw [if_pos h1] at he
    cases he
    exact h
  rw [if_neg h1] at he
  by_cases h2 : m.cols ≠ mout.cols
  · rw [if_pos h2] at he
    cases he
    exact h
  rw [if_neg h2] at he
  obtain ⟨⟨rc1, a⟩, ha, he⟩ := bind_ok he
  have ha' := shp_copy h ha
  by_cases h3 : rc1 ≠ 0
  · simp only [if_pos h3] at he
    cases he
    exact ha'
  simp only [if_neg h3] at he
  obtain ⟨d, -, he⟩ := bind_ok he
  cases he
  exact ha'

/-! ### Householder reflections and QR -/

theorem augm_eq {x0 : R} {m maug : Mtx R} (h1 : m.rows ≤ m.cols) (h2 : m.rows ≤ maug.rows) (h3 : maug.rows ≤ maug.cols) :
    NoChk.mtxAugmDiag x0 m maug = mtxAugmDiag x0 m maug ∧
    ∀ rc a, mtxAugmDiag x0 m maug = ok (rc, a) → Shp a maug.rows maug.cols := by
  have hadd : ∀ i, i < m.rows → szAdd i (szSub maug.rows m.rows) < maug.rows := by
    intro i hi
    rw [szSub_le h2]
    unfold szAdd
    exact lt_of_le_of_lt (Nat.mod_le _ _) (by omega)
  unfold NoChk.mtxAugmDiag mtxAugmDiag
  have keep : ∀ i j, ∀ s s' : R × Mtx R, Shp s.2 maug.rows maug.cols → (do
      let (x, ma) := s
      let (_, x) ← mtxGet m i j x
      let (_, ma) ← mtxSet ma (szAdd i (szSub maug.rows m.rows)) (szAdd j (szSub maug.rows m.rows)) x
      return (x, ma) : Out (R × Mtx R)) = ok s' → Shp s'.2 maug.rows maug.cols := by
    rintro i j ⟨x, ma⟩ s' hs he
    obtain ⟨⟨_, x'⟩, -, he⟩ := bind_ok he
    obtain ⟨⟨_, a⟩, ha, he⟩ := bind_ok he
    cases he
    exact shp_set hs ha
  constructor
  · refine bind_congr_ok init_identity.1 fun a ha => ?_
    obtain ⟨rc, a⟩ := a
    refine bind_congr_ok (forN_congr_inv (fun _ s => Shp s.2 maug.rows maug.cols) (init_identity.2 rc a ha) ?_ ?_).1 fun x _ => rfl
    · intro i hi s hs
      refine (forN_congr_inv (fun _ s => Shp s.2 maug.rows maug.cols) hs ?_ ?_).1
      · rintro j hj ⟨x, ma⟩ hs
        refine bind_congr_ok (get_eq hi (by omega)) fun b _ => ?_
        exact bind_congr_ok (set_eq (by rw [hs.1]; exact hadd i hi) (by rw [hs.2]; exact lt_of_lt_of_le (hadd j hj) h3)) fun c _ => rfl
      · intro j hj s s' hs he
        exact keep i j s s' hs he
    · intro i hi s s' hs he
      exact forN_ok (fun s => Shp s.2 maug.rows maug.cols) hs (fun j _ s s' hs he => keep i j s s' hs he) he
  · intro rc a he
    obtain ⟨⟨rc1, b⟩, hb, he⟩ := bind_ok he
    obtain ⟨⟨x, c⟩, hc, he⟩ := bind_ok he
    cases he
    refine forN_ok (fun s => Shp s.2 maug.rows maug.cols) (init_identity.2 rc1 b hb) ?_ hc
    intro i hi s s' hs he
    exact forN_ok (fun s => Shp s.2 maug.rows maug.cols) hs (fun j _ s s' hs he => keep i j s s' hs he) he

theorem subset_eq {v vsub : Vec R} {offset len : Nat} (h1 : offset < v.sz) (h2 : offset + len ≤ v.sz) (h3 : len ≤ vsub.sz) :
    NoChk.vecGetSubset v offset len vsub = vecGetSubset v offset len vsub := by
  unfold NoChk.vecGetSubset vecGetSubset
  rw [if_neg (c := offset ≥ v.sz) (by omega)]
  have hs : szAdd offset len ≤ offset + len := Nat.mod_le _ _
  have hl : (if szAdd offset len ≥ v.sz then v.sz - offset else len) = len := by
    by_cases h : szAdd offset len ≥ v.sz
    · rw [if_pos h]
      omega
    · rw [if_neg h]
  simp only [hl]
  rw [if_neg (c := vsub.sz < len) (by omega)]

theorem sz_subset {v vsub v' : Vec R} {offset len : Nat} {rc : Int} (h1 : offset < v.sz) (h2 : offset + len ≤ v.sz)
    (h3 : vsub.sz = len) (he : vecGetSubset v offset len vsub = ok (rc, v')) : v'.sz = len := by
  rw [← subset_eq h1 h2 (le_of_eq h3.symm)] at he
  unfold NoChk.vecGetSubset at he
  obtain ⟨d, -, he⟩ := bind_ok he
  cases he
  show (if vsub.sz > len then len else vsub.sz) = len
  rw [if_neg (by omega), h3]

theorem sz_copy {v v' w : Vec R} {rc : Int} (he : vecCopy v w = ok (rc, v')) : v'.sz = w.sz := by
  unfold vecCopy at he
  obtain ⟨d, -, he⟩ := bind_ok he
  cases he
  rfl

theorem sz_scalarDiv {v v' : Vec R} {s : R} {rc : Int} (he : vecScalarDiv v s = ok (rc, v')) : v'.sz = v.sz := by
  unfold vecScalarDiv at he
  by_cases h : CReal.eq s (lit 0) = true
  · rw [if_pos h] at he
    cases he
    rfl
  · rw [if_neg h] at he
    obtain ⟨d, -, he⟩ := bind_ok he
    cases he
    rfl

theorem householder_eq {junk : Nat → R} {m h : Mtx R} {hess : Bool} (h0 : 0 < m.cols) (h1 : m.rows ≤ h.rows) (h2 : h.rows ≤ h.cols) :
    NoChk.mtxHouseholder junk m h hess = mtxHouseholder junk m h hess ∧
    ∀ rc a, mtxHouseholder junk m h hess = ok (rc, a) → Shp a h.rows h.cols := by
  by_cases hr : m.rows = 0
  · unfold NoChk.mtxHouseholder mtxHouseholder
    rw [if_pos (Or.inr hr), if_pos (Or.inr hr)]
    exact ⟨rfl, fun rc a he => by cases he⟩
  have hz : ∃ size, size = (if hess then szSub m.rows 1 else m.rows) ∧ size ≤ m.rows ∧ (hess = true → 1 + size = m.rows) ∧
      (¬ hess = true → size = m.rows) := by
    refine ⟨_, rfl, ?_⟩
    by_cases hh : hess = true
    · rw [if_pos hh, szSub_le (by omega)]
      exact ⟨by omega, fun _ => by omega, fun h => absurd hh h⟩
    · rw [if_neg hh]
      exact ⟨le_refl _, fun h => absurd h hh, fun _ => rfl⟩
  obtain ⟨size, hsz, hle, hz1, hz2⟩ := hz
  unfold NoChk.mtxHouseholder mtxHouseholder
  simp only [← hsz]
  by_cases hs0 : size = 0 ∨ m.rows = 0
  · rw [if_pos hs0, if_pos hs0]
    exact ⟨rfl, fun rc a he => by cases he⟩
  rw [if_neg hs0, if_neg hs0]
  have hv : ∀ (v2 : List R), (if hess then NoChk.vecGetSubset ⟨m.rows, v2⟩ 1 size (Vec.uninit junk size)
      else vecCopy (Vec.uninit junk size) ⟨m.rows, v2⟩) = (if hess then vecGetSubset ⟨m.rows, v2⟩ 1 size (Vec.uninit junk size)
      else vecCopy (Vec.uninit junk size) ⟨m.rows, v2⟩) ∧ ∀ rc v, (if hess then vecGetSubset ⟨m.rows, v2⟩ 1 size (Vec.uninit junk size)
      else vecCopy (Vec.uninit junk size) ⟨m.rows, v2⟩) = ok (rc, v) → v.sz = size := by
    intro v2
    by_cases hh : hess = true
    · have a1 : 1 < (⟨m.rows, v2⟩ : Vec R).sz := by
        show 1 < m.rows
        have := hz1 hh
        omega
      have a2 : 1 + size ≤ (⟨m.rows, v2⟩ : Vec R).sz := le_of_eq (hz1 hh)
      rw [if_pos hh, if_pos hh]
      exact ⟨subset_eq a1 a2 (le_refl _), fun rc v he => sz_subset a1 a2 rfl he⟩
    · rw [if_neg hh, if_neg hh]
      exact ⟨rfl, fun rc v he => (sz_copy he).trans (hz2 hh).symm⟩
  constructor
  · refine bind_congr_ok rfl fun a ha => ?_
    obtain ⟨_, e1⟩ := a
    have he1 : e1.sz = size := sz_init ha
    refine bind_congr_ok rfl fun d _ => ?_
    refine bind_congr_ok (getCol_eq h0) fun b _ => ?_
    obtain ⟨_, v2⟩ := b
    refine bind_congr_ok (hv v2).1 fun v hvv => ?_
    obtain ⟨_, v⟩ := v
    have hvs := (hv v2).2 _ _ hvv
    refine bind_congr_ok rfl fun v0 _ => ?_
    refine bind_congr_ok (vnorm_eq _) fun nv _ => ?_
    refine bind_congr_ok rfl fun e2 he2 => ?_
    obtain ⟨_, e2⟩ := e2
    have he2' : e2.sz = size := (sz_scalarMult he2).trans he1
    refine bind_congr_ok (vadd_eq (hvs.trans he2'.symm) rfl) fun v1 hv1 => ?_
    obtain ⟨_, v1⟩ := v1
    refine bind_congr_ok (vnorm_eq _) fun nv _ => ?_
    refine bind_congr_ok rfl fun v3 hv3 => ?_
    obtain ⟨_, v3⟩ := v3
    refine bind_congr_ok rfl fun mv hmv => ?_
    obtain ⟨_, mv⟩ := mv
    have smv := shp_fromArr (a := Mtx.uninit junk size 1) (shp_self _) hmv
    refine bind_congr_ok (trans_eq smv.1 smv.2) fun mvt hmvt => ?_
    obtain ⟨_, mvt⟩ := mvt
    have smvt := shp_trans (b := Mtx.uninit junk 1 size) (shp_self _) hmvt
    refine bind_congr_ok (mult_eq (smv.2.trans smvt.1.symm) smv.1.symm smvt.2.symm) fun vvt hvvt => ?_
    obtain ⟨_, vvt⟩ := vvt
    have svvt := shp_mult (c := Mtx.uninit junk size size) (shp_self _) hvvt
    refine bind_congr_ok init_identity.1 fun id hid => ?_
    obtain ⟨_, id⟩ := id
    have sid := init_identity.2 _ _ hid
    refine bind_congr_ok rfl fun vvt2 hvvt2 => ?_
    obtain ⟨_, vvt2⟩ := vvt2
    have svvt2 := shp_scalarMult svvt hvvt2
    refine bind_congr_ok (binaryOp_eq (sid.1.trans svvt2.1.symm) svvt2.1 (sid.2.trans svvt2.2.symm) svvt2.2) fun hh hhh => ?_
    obtain ⟨_, hh⟩ := hh
    have shh := shp_binaryOp (c := Mtx.uninit junk size size) (shp_self _) hhh
    exact bind_congr_ok (augm_eq (le_of_eq (shh.1.trans shh.2.symm)) (by rw [shh.1]; exact le_trans hle h1) h2).1 fun _ _ => rfl
  · intro rc a he
    obtain ⟨⟨_, e1⟩, -, he⟩ := bind_ok he
    obtain ⟨d, -, he⟩ := bind_ok he
    obtain ⟨⟨_, v2⟩, -, he⟩ := bind_ok he
    obtain ⟨⟨_, v⟩, -, he⟩ := bind_ok he
    obtain ⟨v0, -, he⟩ := bind_ok he
    obtain ⟨nv, -, he⟩ := bind_ok he
    obtain ⟨⟨_, e2⟩, -, he⟩ := bind_ok he
    obtain ⟨⟨_, v1⟩, -, he⟩ := bind_ok he
    obtain ⟨nv, -, he⟩ := bind_ok he
    obtain ⟨⟨_, v3⟩, -, he⟩ := bind_ok he
    obtain ⟨⟨_, mv⟩, -, he⟩ := bind_ok he
    obtain ⟨⟨_, mvt⟩, -, he⟩ := bind_ok he
    obtain ⟨⟨_, vvt⟩, -, he⟩ := bind_ok he
    obtain ⟨⟨_, id⟩, -, he⟩ := bind_ok he
    obtain ⟨⟨_, vvt2⟩, -, he⟩ := bind_ok he
    obtain ⟨⟨_, hh⟩, hhh, he⟩ := bind_ok he
    obtain ⟨⟨_, hf⟩, hhf, he⟩ := bind_ok he
    cases he
    have shh := shp_binaryOp (c := Mtx.uninit junk size size) (shp_self _) hhh
    exact (augm_eq (le_of_eq (shh.1.trans shh.2.symm)) (by rw [shh.1]; exact le_trans hle h1) h2).2 _ _ hhf

/-- The state of the repeated reduction of an `n`×`k` matrix to `p`×`(k - (n - p))`. -/
def RedInv (n k : Nat) (s : ReduceState R) : Prop :=
  (∃ t, s.place1.rows + t = n ∧ s.place1.cols + t = k) ∧ (∃ t, s.mred.rows + t = n ∧ s.mred.cols + t = k) ∧
    0 < s.mred.rows ∧ s.mred.rows ≤ s.place1.rows

theorem reduceIter_eq {junk : Nat → R} {x0 : R} {m : Mtx R} {s : ReduceState R} (hle : m.rows ≤ m.cols) (h : RedInv m.rows m.cols s) :
    NoChk.mtxReduceIter junk x0 m s = mtxReduceIter junk x0 m s ∧
    ∀ rc s', mtxReduceIter junk x0 m s = ok (rc, s') → Shp s'.mred s.mred.rows s.mred.cols ∧ (rc ≠ 0 → RedInv m.rows m.cols s') := by
  obtain ⟨⟨t, ht1, ht2⟩, ⟨u, hu1, hu2⟩, h0, hm⟩ := h
  unfold NoChk.mtxReduceIter mtxReduceIter
  have first : (do
      if m.rows = s.place1.rows then do
        let (_, p) ← NoChk.mtxCopy s.place1 m
        return p
      else return s.place1 : Out (Mtx R)) = (do
      if m.rows = s.place1.rows then do
        let (_, p) ← mtxCopy s.place1 m
        return p
      else return s.place1 : Out (Mtx R)) ∧ ∀ p, (do
      if m.rows = s.place1.rows then do
        let (_, p) ← mtxCopy s.place1 m
        return p
      else return s.place1 : Out (Mtx R)) = ok p → Shp p s.place1.rows s.place1.cols := by
    by_cases hr : m.rows = s.place1.rows
    · rw [if_pos hr, if_pos hr]
      refine ⟨bind_congr_ok (copy_eq hr.symm (by omega)) fun _ _ => rfl, fun p he => ?_⟩
      obtain ⟨⟨_, q⟩, hq, he⟩ := bind_ok he
      cases he
      exact shp_copy (shp_self _) hq
    · rw [if_neg hr, if_neg hr]
      exact ⟨rfl, fun p he => by cases he; exact shp_self _⟩
  have red : ∀ p : Mtx R, Shp p s.place1.rows s.place1.cols → ¬ p.rows = s.mred.rows →
      szSub p.rows 1 = s.place1.rows - 1 ∧ szSub p.cols 1 = s.place1.cols - 1 ∧ 2 ≤ s.place1.rows ∧ 2 ≤ s.place1.cols := by
    intro p hp hne
    have a1 := hp.1
    have a2 := hp.2
    rw [szSub_le (by omega), szSub_le (by omega), a1, a2]
    exact ⟨rfl, rfl, by omega, by omega⟩
  constructor
  · refine bind_congr_ok first.1 fun p hp => ?_
    have sp := first.2 p hp
    by_cases hr : p.rows = s.mred.rows
    · rw [if_pos hr, if_pos hr]
      refine bind_congr_ok (copy_eq hr.symm ?_) fun _ _ => rfl
      have a1 := sp.1
      have a2 := sp.2
      omega
    · rw [if_neg hr, if_neg hr]
      obtain ⟨b1, b2, b3, b4⟩ := red p sp hr
      have a1 := sp.1
      have a2 := sp.2
      refine bind_congr_ok (reduce_eq (by omega) rfl rfl (by omega) (by omega)) fun p2 hp2 => ?_
      obtain ⟨_, p2⟩ := p2
      have s2 := shp_reduce (mr := { s.place2 with rows := szSub p.rows 1, cols := szSub p.cols 1 }) (shp_self _) hp2
      exact bind_congr_ok (copy_eq s2.1.symm s2.2.symm) fun _ _ => rfl
  · intro rc s' he
    obtain ⟨p, hp, he⟩ := bind_ok he
    have sp := first.2 p hp
    by_cases hr : p.rows = s.mred.rows
    · rw [if_pos hr] at he
      obtain ⟨⟨_, q⟩, hq, he⟩ := bind_ok he
      cases he
      exact ⟨shp_copy (shp_self _) hq, fun h => absurd rfl h⟩
    · rw [if_neg hr] at he
      obtain ⟨b1, b2, b3, b4⟩ := red p sp hr
      obtain ⟨⟨_, p2⟩, hp2, he⟩ := bind_ok he
      obtain ⟨⟨_, p3⟩, hp3, he⟩ := bind_ok he
      cases he
      have s3 := shp_copy (a := { p with rows := szSub p.rows 1, cols := szSub p.cols 1 }) (shp_self _) hp3
      have c1 : p3.rows = s.place1.rows - 1 := s3.1.trans b1
      have c2 : p3.cols = s.place1.cols - 1 := s3.2.trans b2
      have a1 := sp.1
      refine ⟨shp_self _, fun _ => ⟨⟨t + 1, ?_, ?_⟩, ⟨u, hu1, hu2⟩, h0, ?_⟩⟩
      · show p3.rows + (t + 1) = m.rows
        omega
      · show p3.cols + (t + 1) = m.cols
        omega
      · show s.mred.rows ≤ p3.rows
        omega

theorem reduceLoop_eq {junk : Nat → R} {x0 : R} {m : Mtx R} (hle : m.rows ≤ m.cols) : ∀ (fuel : Nat) (s : ReduceState R),
    RedInv m.rows m.cols s → NoChk.mtxReduceLoop fuel junk x0 m s = mtxReduceLoop fuel junk x0 m s ∧
    ∀ s', mtxReduceLoop fuel junk x0 m s = ok s' → Shp s'.mred s.mred.rows s.mred.cols := by
  intro fuel
  induction fuel with
  | zero => exact fun s _ => ⟨rfl, fun s' he => by cases he⟩
  | succ fuel ih =>
    intro s hs
    have it := reduceIter_eq (junk := junk) (x0 := x0) hle hs
    unfold NoChk.mtxReduceLoop mtxReduceLoop
    constructor
    · refine bind_congr_ok it.1 fun a ha => ?_
      obtain ⟨rc, s1⟩ := a
      by_cases hrc : rc ≠ 0
      · simp only [if_pos hrc]
        exact (ih s1 ((it.2 _ _ ha).2 hrc)).1
      · simp only [if_neg hrc]
    · intro s' he
      obtain ⟨⟨rc, s1⟩, ha, he⟩ := bind_ok he
      by_cases hrc : rc ≠ 0
      · simp only [if_pos hrc] at he
        have h1 := (it.2 _ _ ha)
        have h2 := (ih s1 (h1.2 hrc)).2 _ he
        exact ⟨h2.1.trans h1.1.1, h2.2.trans h1.1.2⟩
      · simp only [if_neg hrc] at he
        cases he
        exact (it.2 _ _ ha).1

/-- The shapes of the matrices kept by the loop of `zsl_mtx_qrd`. -/
def QrInv (n k : Nat) (s : Mtx R × Mtx R × Mtx R × Mtx R × Mtx R × Mtx R) : Prop :=
  Shp s.1 n k ∧ Shp s.2.1 n k ∧ Shp s.2.2.1 n n ∧ Shp s.2.2.2.1 n n ∧ Shp s.2.2.2.2.1 n n ∧ Shp s.2.2.2.2.2 n k

theorem qrdStep_eq {junk : Nat → R} {n k g : Nat} {hess : Bool} {s : Mtx R × Mtx R × Mtx R × Mtx R × Mtx R × Mtx R}
    (hle : n ≤ k) (hsq : hess = true → n = k) (hg : g + 1 < n) (h : QrInv n k s) :
    NoChk.qrdStep junk n k hess g s = qrdStep junk n k hess g s ∧
    ∀ s', qrdStep junk n k hess g s = ok s' → QrInv n k s' := by
  obtain ⟨r2, he, hh, h2, qt, r⟩ := s
  obtain ⟨i1, i2, i3, i4, i5, i6⟩ := h
  have i1 : Shp r2 n k := i1
  have i2 : Shp he n k := i2
  have i3 : Shp hh n n := i3
  have i4 : Shp h2 n n := i4
  have i5 : Shp qt n n := i5
  have i6 : Shp r n k := i6
  unfold NoChk.qrdStep qrdStep
  have gn : szSub n g = n - g := szSub_le (by omega)
  have gk : szSub k g = k - g := szSub_le (by omega)
  have hinv : RedInv r.rows r.cols (⟨Mtx.uninit junk (szSub n g) (szSub k g), Mtx.uninit junk r.rows r.cols,
      Mtx.uninit junk r.rows r.cols⟩ : ReduceState R) := by
    refine ⟨⟨0, rfl, rfl⟩, ⟨g, ?_, ?_⟩, ?_, ?_⟩
    · show szSub n g + g = r.rows
      rw [gn, i6.1]
      omega
    · show szSub k g + g = r.cols
      rw [gk, i6.2]
      omega
    · show 0 < szSub n g
      omega
    · show szSub n g ≤ r.rows
      rw [gn, i6.1]
      omega
  have red := reduceLoop_eq (junk := junk) (x0 := junk 0) (m := r) (by rw [i6.1, i6.2]; exact hle) (r.rows + 1) _ hinv
  have hous : ∀ st : ReduceState R, mtxReduceLoop (r.rows + 1) junk (junk 0) r ⟨Mtx.uninit junk (szSub n g) (szSub k g),
      Mtx.uninit junk r.rows r.cols, Mtx.uninit junk r.rows r.cols⟩ = ok st → _ := fun st hst =>
    householder_eq (junk := junk) (m := st.mred) (h := Mtx.uninit junk (szSub n g) (szSub n g)) (hess := hess)
      (by
        have := (red.2 _ hst).2
        have e : st.mred.cols = szSub k g := this
        omega)
      (le_of_eq (red.2 _ hst).1) (le_refl _)
  constructor
  · refine bind_congr_ok red.1 fun st hst => ?_
    refine bind_congr_ok (hous st hst).1 fun hr hhr => ?_
    obtain ⟨_, hr⟩ := hr
    have shr : Shp hr (szSub n g) (szSub n g) := (hous st hst).2 _ _ hhr
    have aug := augm_eq (x0 := junk 0) (m := hr) (maug := hh) (le_of_eq (shr.1.trans shr.2.symm)) (by rw [shr.1, i3.1]; omega)
      (by rw [i3.1, i3.2])
    refine bind_congr_ok aug.1 fun h1 hh1 => ?_
    obtain ⟨_, h1⟩ := h1
    have sh1 : Shp h1 n n := by
      have := aug.2 _ _ hh1
      exact ⟨this.1.trans i3.1, this.2.trans i3.2⟩
    refine bind_congr_ok (mult_eq (sh1.2.trans i6.1.symm) (i1.1.trans sh1.1.symm) (i1.2.trans i6.2.symm)) fun r2' hr2' => ?_
    obtain ⟨_, r2'⟩ := r2'
    have sr2 := shp_mult i1 hr2'
    refine bind_congr_ok (mult_eq (sh1.2.trans i5.1.symm) (i4.1.trans sh1.1.symm) (i4.2.trans i5.2.symm)) fun h2' hh2' => ?_
    obtain ⟨_, h2'⟩ := h2'
    have sh2 := shp_mult i4 hh2'
    refine bind_congr_ok (copy_eq (i5.1.trans sh2.1.symm) (i5.2.trans sh2.2.symm)) fun qt' hqt' => ?_
    obtain ⟨_, qt'⟩ := qt'
    by_cases hb : hess = true
    · simp only [if_pos hb]
      have hk := hsq hb
      refine bind_congr_ok (mult_eq (sr2.2.trans (hk.symm.trans sh1.1.symm)) (i2.1.trans sr2.1.symm) (i2.2.trans (hk.symm.trans sh1.2.symm))) fun he' hhe' => ?_
      obtain ⟨_, he'⟩ := he'
      have she := shp_mult i2 hhe'
      exact bind_congr_ok (copy_eq (i6.1.trans she.1.symm) (i6.2.trans she.2.symm)) fun _ _ => rfl
    · simp only [if_neg hb]
      exact bind_congr_ok (copy_eq (i6.1.trans sr2.1.symm) (i6.2.trans sr2.2.symm)) fun _ _ => rfl
  · intro s' hx
    obtain ⟨st, hst, hx⟩ := bind_ok hx
    obtain ⟨⟨_, hr⟩, hhr, hx⟩ := bind_ok hx
    have shr : Shp hr (szSub n g) (szSub n g) := (hous st hst).2 _ _ hhr
    have aug := augm_eq (x0 := junk 0) (m := hr) (maug := hh) (le_of_eq (shr.1.trans shr.2.symm)) (by rw [shr.1, i3.1]; omega)
      (by rw [i3.1, i3.2])
    obtain ⟨⟨_, h1⟩, hh1, hx⟩ := bind_ok hx
    have sh1 : Shp h1 n n := by
      have := aug.2 _ _ hh1
      exact ⟨this.1.trans i3.1, this.2.trans i3.2⟩
    obtain ⟨⟨_, r2'⟩, hr2', hx⟩ := bind_ok hx
    obtain ⟨⟨_, h2'⟩, hh2', hx⟩ := bind_ok hx
    obtain ⟨⟨_, qt'⟩, hqt', hx⟩ := bind_ok hx
    by_cases hb : hess = true
    · simp only [if_pos hb] at hx
      obtain ⟨⟨_, he'⟩, hhe', hx⟩ := bind_ok hx
      obtain ⟨⟨_, r'⟩, hr', hx⟩ := bind_ok hx
      cases hx
      exact ⟨shp_mult i1 hr2', shp_mult i2 hhe', sh1, shp_mult i4 hh2', shp_copy i5 hqt', shp_copy i6 hr'⟩
    · simp only [if_neg hb] at hx
      obtain ⟨⟨_, r'⟩, hr', hx⟩ := bind_ok hx
      cases hx
      exact ⟨shp_mult i1 hr2', i2, sh1, shp_mult i4 hh2', shp_copy i5 hqt', shp_copy i6 hr'⟩

theorem qrd_eq {junk : Nat → R} {m q r : Mtx R} {hess : Bool} (hle : m.rows ≤ m.cols) (hsq : hess = true → m.rows = m.cols)
    (hq : Shp q m.rows m.rows) (hr : Shp r m.rows m.cols) :
    NoChk.mtxQrd junk m q r hess = mtxQrd junk m q r hess ∧
    ∀ rc q' r', mtxQrd junk m q r hess = ok (rc, q', r') → Shp q' m.rows m.rows ∧ Shp r' m.rows m.cols := by
  unfold NoChk.mtxQrd mtxQrd
  by_cases h0 : m.rows = 0 ∨ m.cols = 0
  · rw [if_pos h0, if_pos h0]
    exact ⟨rfl, fun _ _ _ he => by cases he⟩
  rw [if_neg h0, if_neg h0]
  have loop : ∀ h qt r1 : Mtx R, Shp h m.rows m.rows → Shp qt m.rows m.rows → Shp r1 m.rows m.cols → _ := fun h qt r1 sh sq sr =>
    forN_congr_inv (n := szSub m.rows 1) (f := fun g s => NoChk.qrdStep junk m.rows m.cols hess g s)
      (g := fun g s => qrdStep junk m.rows m.cols hess g s)
      (s := (Mtx.uninit junk m.rows m.cols, Mtx.uninit junk m.rows m.cols, h, Mtx.uninit junk m.rows m.rows, qt, r1))
      (fun _ s => QrInv m.rows m.cols s) ⟨shp_self _, shp_self _, sh, shp_self _, sq, sr⟩
      (fun g hg s hs => (qrdStep_eq hle hsq (by rw [szSub_le (by omega)] at hg; omega) hs).1)
      (fun g hg s s' hs he => (qrdStep_eq hle hsq (by rw [szSub_le (by omega)] at hg; omega) hs).2 _ he)
  constructor
  · refine bind_congr_ok init_none.1 fun h hh => ?_
    obtain ⟨_, h⟩ := h
    have sh : Shp h m.rows m.rows := init_none.2 _ _ hh
    refine bind_congr_ok init_identity.1 fun qt hqt => ?_
    obtain ⟨_, qt⟩ := qt
    have sqt : Shp qt m.rows m.rows := init_identity.2 _ _ hqt
    refine bind_congr_ok (copy_eq hr.1 hr.2) fun r1 hr1 => ?_
    obtain ⟨_, r1⟩ := r1
    have l := loop h qt r1 sh sqt (shp_copy hr hr1)
    refine bind_congr_ok l.1 fun s hs => ?_
    obtain ⟨a1, a2, a3, a4, a5, a6⟩ := s
    obtain ⟨-, -, -, -, b5, b6⟩ := l.2 _ hs
    have b5 : Shp a5 m.rows m.rows := b5
    exact bind_congr_ok (trans_eq (b5.1.trans hq.2.symm) (b5.2.trans hq.1.symm)) fun _ _ => rfl
  · intro rc q' r' he
    obtain ⟨⟨_, h⟩, hh, he⟩ := bind_ok he
    have sh : Shp h m.rows m.rows := init_none.2 _ _ hh
    obtain ⟨⟨_, qt⟩, hqt, he⟩ := bind_ok he
    have sqt : Shp qt m.rows m.rows := init_identity.2 _ _ hqt
    obtain ⟨⟨_, r1⟩, hr1, he⟩ := bind_ok he
    have l := loop h qt r1 sh sqt (shp_copy hr hr1)
    obtain ⟨⟨a1, a2, a3, a4, a5, a6⟩, hs, he⟩ := bind_ok he
    obtain ⟨-, -, -, -, b5, b6⟩ := l.2 _ hs
    obtain ⟨⟨_, qq⟩, hqq, he⟩ := bind_ok he
    cases he
    exact ⟨shp_trans hq hqq, b6⟩

theorem qrdIter_eq {junk : Nat → R} {m mout : Mtx R} {iter : Nat} (hsq : m.rows = m.cols) (ho : Shp mout m.rows m.cols) :
    NoChk.mtxQrdIter junk m mout iter = mtxQrdIter junk m mout iter ∧
    ∀ rc a, mtxQrdIter junk m mout iter = ok (rc, a) → Shp a m.rows m.cols := by
  unfold NoChk.mtxQrdIter mtxQrdIter
  by_cases h0 : m.rows = 0
  · rw [if_pos h0, if_pos h0]
    exact ⟨rfl, fun _ _ he => by cases he⟩
  rw [if_neg h0, if_neg h0]
  have qr : ∀ q r mo : Mtx R, Shp q m.rows m.rows → Shp r m.rows m.rows → Shp mo m.rows m.rows →
      NoChk.mtxQrd junk mo q r false = mtxQrd junk mo q r false ∧
      ∀ rc q' r', mtxQrd junk mo q r false = ok (rc, q', r') → Shp q' m.rows m.rows ∧ Shp r' m.rows m.rows := by
    intro q r mo sq sr sm
    have := qrd_eq (junk := junk) (m := mo) (q := q) (r := r) (hess := false) (by rw [sm.1, sm.2]) (fun h => by cases h)
      (by rw [sm.1]; exact sq) (by rw [sm.1, sm.2]; exact sr)
    rw [sm.1, sm.2] at this
    exact this
  have loop : ∀ mo : Mtx R, Shp mo m.rows m.rows → _ := fun mo sm =>
    forN_congr_inv (n := iter) (s := (Mtx.uninit junk m.rows m.rows, Mtx.uninit junk m.rows m.rows, mo))
      (f := fun _ (s : Mtx R × Mtx R × Mtx R) => (do
        let (q, r, mout) := s
        let (_, q, r) ← NoChk.mtxQrd junk mout q r false
        let (_, mout) ← NoChk.mtxMult r q mout
        return (q, r, mout) : Out (Mtx R × Mtx R × Mtx R)))
      (g := fun _ (s : Mtx R × Mtx R × Mtx R) => (do
        let (q, r, mout) := s
        let (_, q, r) ← mtxQrd junk mout q r false
        let (_, mout) ← mtxMult r q mout
        return (q, r, mout) : Out (Mtx R × Mtx R × Mtx R)))
      (fun _ s => Shp s.1 m.rows m.rows ∧ Shp s.2.1 m.rows m.rows ∧ Shp s.2.2 m.rows m.rows) ⟨shp_self _, shp_self _, sm⟩
      (by
        rintro i hi ⟨q, r, mo⟩ ⟨sq, sr, sm⟩
        refine bind_congr_ok (qr q r mo sq sr sm).1 fun a ha => ?_
        obtain ⟨_, q1, r1⟩ := a
        have b := (qr q r mo sq sr sm).2 _ _ _ ha
        have sm : Shp mo m.rows m.rows := sm
        exact bind_congr_ok (mult_eq (b.2.2.trans b.1.1.symm) (sm.1.trans b.2.1.symm) (sm.2.trans b.1.2.symm)) fun _ _ => rfl)
      (by
        rintro i hi ⟨q, r, mo⟩ s' ⟨sq, sr, sm⟩ he
        obtain ⟨⟨_, q1, r1⟩, ha, he⟩ := bind_ok he
        have b := (qr q r mo sq sr sm).2 _ _ _ ha
        obtain ⟨⟨_, mo'⟩, hmo, he⟩ := bind_ok he
        cases he
        exact ⟨b.1, b.2, shp_mult sm hmo⟩)
  constructor
  · refine bind_congr_ok (copy_eq ho.1 ho.2) fun a ha => ?_
    obtain ⟨rc, mo⟩ := a
    have sm : Shp mo m.rows m.rows := by
      have := shp_copy ho ha
      rwa [← hsq] at this
    by_cases hrc : rc ≠ 0
    · simp only [if_pos hrc]
    · simp only [if_neg hrc]
      exact bind_congr_ok (loop mo sm).1 fun _ _ => rfl
  · intro rc a he
    obtain ⟨⟨rc1, mo⟩, ha, he⟩ := bind_ok he
    have sm : Shp mo m.rows m.rows := by
      have := shp_copy ho ha
      rwa [← hsq] at this
    rw [← hsq]
    by_cases hrc : rc1 ≠ 0
    · simp only [if_pos hrc] at he
      cases he
      exact sm
    · simp only [if_neg hrc] at he
      obtain ⟨⟨q, r, mo'⟩, hl, he⟩ := bind_ok he
      cases he
      exact ((loop mo sm).2 _ hl).2.2

/-! ### Eigenvalues -/

theorem eigScan_eq {mout : Mtx R} {last : Nat} (h1 : last < mout.rows) (h2 : last < mout.cols) : ∀ (fuel g : Nat) (sd di : R) (vd : List R) (real : Nat),
    NoChk.eigScan fuel mout last g sd di vd real = eigScan fuel mout last g sd di vd real := by
  intro fuel
  induction fuel with
  | zero => exact fun _ _ _ _ _ => rfl
  | succ fuel ih =>
    intro g sd di vd real
    unfold NoChk.eigScan eigScan
    by_cases hg : g < last
    · rw [if_pos hg, if_pos hg]
      refine bind_congr_ok (get_eq (by omega) (by omega)) fun a _ => ?_
      obtain ⟨_, sd'⟩ := a
      by_cases hb : (CReal.ge sd' (lit 1e-6) || CReal.le sd' (-lit 1e-6)) = true
      · simp only [if_pos hb]
        exact ih _ _ _ _ _
      · simp only [if_neg hb]
        refine bind_congr_ok (get_eq (by omega) (by omega)) fun b _ => ?_
        exact bind_congr_ok rfl fun c _ => ih _ _ _ _ _
    · rw [if_neg hg, if_neg hg]

theorem eigenvalues_eq {fuel : Nat} {junk : Nat → R} {m : Mtx R} {v : Vec R} {iter : Nat} (hsq : m.rows = m.cols)
    (h2 : 2 ≤ m.rows ∨ mtxIsSym (junk 0) m ≠ ok false) :
    NoChk.mtxEigenvalues fuel junk m v iter = mtxEigenvalues fuel junk m v iter := by
  unfold NoChk.mtxEigenvalues mtxEigenvalues
  by_cases h0 : m.rows = 0
  · rw [if_pos h0, if_pos h0]
  rw [if_neg h0, if_neg h0]
  refine bind_congr_ok (balance_eq rfl hsq) fun a ha => ?_
  obtain ⟨_, mt⟩ := a
  have smt : Shp mt m.rows m.rows := shp_balance (mout := Mtx.uninit junk m.rows m.rows) (shp_self _) ha
  have qr := qrd_eq (junk := junk) (m := mt) (q := Mtx.uninit junk m.rows m.rows) (r := Mtx.uninit junk m.rows m.rows) (hess := true)
    (by rw [smt.1, smt.2]) (fun _ => by rw [smt.1, smt.2]) (by rw [smt.1]; exact shp_self _)
    (by rw [smt.1, smt.2]; exact shp_self _)
  rw [smt.1, smt.2] at qr
  refine bind_congr_ok qr.1 fun b hb => ?_
  obtain ⟨_, mo, mt2⟩ := b
  obtain ⟨smo, smt2⟩ := qr.2 _ _ _ hb
  have it := qrdIter_eq (junk := junk) (m := mt2) (mout := mo) (iter := iter) (by rw [smt2.1, smt2.2]) (by rw [smt2.1, smt2.2]; exact smo)
  rw [smt2.1, smt2.2] at it
  refine bind_congr_ok it.1 fun c hc => ?_
  obtain ⟨_, mo1⟩ := c
  have smo1 := it.2 _ _ hc
  refine bind_congr_ok rfl fun d _ => ?_
  obtain ⟨_, v1⟩ := d
  refine bind_congr_ok (isSym_eq hsq.symm) fun sym hsym => ?_
  by_cases hs : sym = true
  · rw [if_pos hs, if_pos hs]
    refine bind_congr_ok (forN_congr fun g hg s => ?_) fun _ _ => rfl
    exact bind_congr_ok (get_eq (by rw [smo1.1]; exact hg) (by rw [smo1.2]; exact hg)) fun _ _ => rfl
  · rw [if_neg hs, if_neg hs]
    have h2 : 2 ≤ m.rows := by
      rcases h2 with h2 | h2
      · exact h2
      · cases sym
        · exact absurd hsym h2
        · exact absurd rfl hs
    have e1 : szSub m.rows 1 = m.rows - 1 := szSub_le (by omega)
    have e2 : szSub m.rows 2 = m.rows - 2 := szSub_le (by omega)
    rw [e1, e2]
    refine bind_congr_ok (eigScan_eq (by rw [smo1.1]; omega) (by rw [smo1.2]; omega) _ _ _ _ _ _) fun e _ => ?_
    obtain ⟨sd, di, vd, real⟩ := e
    refine bind_congr_ok (get_eq (by rw [smo1.1]; omega) (by rw [smo1.2]; omega)) fun f _ => ?_
    obtain ⟨_, sd⟩ := f
    refine bind_congr_ok ?_ fun _ _ => rfl
    by_cases hb : (CReal.ge sd (lit 1e-6) || CReal.le sd (-lit 1e-6)) = true
    · rw [if_pos hb, if_pos hb]
    · rw [if_neg hb, if_neg hb]
      exact bind_congr_ok (get_eq (by rw [smo1.1]; omega) (by rw [smo1.2]; omega)) fun _ _ => rfl

end Verif.NoChkL
