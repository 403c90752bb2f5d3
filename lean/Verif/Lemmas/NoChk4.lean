import Verif.Lemmas.NoChk3

/-!
# Checked and unchecked eigenvectors, singular values and pseudoinverse
-/

set_option linter.unusedSectionVars false

namespace Verif.NoChkL

open Out

variable {R : Type} [CReal R]

/-- A loop that agrees with another one on the states from which that one reaches an end allowed by `Q`. -/
theorem forN_ok_back {σ : Type} {n : Nat} {f g : Nat → σ → Out σ} {s t : σ} (P : σ → Prop) (Q : σ → Prop) (h0 : P s)
    (hp : ∀ i, i < n → ∀ u u', P u → g i u = ok u' → P u')
    (hq : ∀ i, i < n → ∀ u u', P u → g i u = ok u' → Q u' → Q u ∧ f i u = ok u')
    (he : forN n g s = ok t) (ht : Q t) : Q s ∧ forN n f s = ok t := by
  induction n generalizing t with
  | zero =>
    rw [forN_zero] at he
    cases he
    exact ⟨ht, rfl⟩
  | succ n ih =>
    rw [forN_succ] at he
    obtain ⟨u, hu, he⟩ := bind_ok he
    have hPu : P u := forN_ok P h0 (fun i hi => hp i (by omega)) hu
    obtain ⟨hQu, hf⟩ := hq n (by omega) u t hPu he ht
    obtain ⟨hQs, hfs⟩ := ih (fun i hi => hp i (by omega)) (fun i hi => hq i (by omega)) hu hQu
    refine ⟨hQs, ?_⟩
    rw [forN_succ, hfs]
    exact hf

theorem gramSchmidt_shp {junk : Nat → R} {m mort a : Mtx R} {rc : Int} {r c : Nat} (h : Shp mort r c)
    (he : mtxGramSchmidt junk m mort = ok (rc, a)) : Shp a r c := by
  unfold mtxGramSchmidt at he
  by_cases h0 : m.rows = 0
  · rw [if_pos h0] at he
    cases he
  rw [if_neg h0] at he
  obtain ⟨⟨v, w, q, mo⟩, hs, he⟩ := bind_ok he
  cases he
  refine forN_ok (fun s => Shp s.2.2.2 r c) h ?_ hs
  rintro t ht ⟨v, w, q, mo⟩ s' hmo he
  obtain ⟨⟨_, q'⟩, -, he⟩ := bind_ok he
  obtain ⟨⟨_, vd⟩, -, he⟩ := bind_ok he
  obtain ⟨⟨w', q''⟩, -, he⟩ := bind_ok he
  obtain ⟨⟨_, v'⟩, -, he⟩ := bind_ok he
  obtain ⟨⟨_, mo'⟩, hmo', he⟩ := bind_ok he
  cases he
  exact shp_setCol hmo hmo'

theorem colsNorm_shp {junk : Nat → R} {m mn a : Mtx R} {rc : Int} {r c : Nat} (h : Shp mn r c)
    (he : mtxColsNorm junk m mn = ok (rc, a)) : Shp a r c := by
  unfold mtxColsNorm at he
  by_cases h0 : m.rows = 0
  · rw [if_pos h0] at he
    cases he
  rw [if_neg h0] at he
  obtain ⟨⟨v, mo⟩, hs, he⟩ := bind_ok he
  cases he
  refine forN_ok (fun s => Shp s.2 r c) h ?_ hs
  rintro t ht ⟨v, mo⟩ s' hmo he
  obtain ⟨⟨_, vd⟩, -, he⟩ := bind_ok he
  obtain ⟨⟨_, v'⟩, -, he⟩ := bind_ok he
  obtain ⟨⟨_, mo'⟩, hmo', he⟩ := bind_ok he
  cases he
  exact shp_setCol hmo hmo'

/-! ### Eigenvectors -/

/-- The number of rows before `k` whose entry on the diagonal of `d`, `n` entries to a row, is small. -/
def smallCount (d : List R) (n : Nat) : Nat → Nat
  | 0 => 0
  | k + 1 => match rd d (k * n + k) with
    | ok x => if isSmall x then smallCount d n k + 1 else smallCount d n k
    | ub => smallCount d n k

theorem smallCount_succ {d : List R} {n k : Nat} {x : R} (h : rd d (k * n + k) = ok x) :
    smallCount d n (k + 1) = if isSmall x then smallCount d n k + 1 else smallCount d n k := by
  simp only [smallCount, h]

theorem smallCount_mono {d : List R} {n : Nat} {k l : Nat} (h : k ≤ l) : smallCount d n k ≤ smallCount d n l := by
  induction l with
  | zero =>
    rw [Nat.le_zero.mp h]
  | succ l ih =>
    have step : smallCount d n l ≤ smallCount d n (l + 1) := by
      cases hx : rd d (l * n + l) with
      | ub => simp only [smallCount, hx, le_refl]
      | ok x =>
        rw [smallCount_succ hx]
        by_cases hb : isSmall x = true
        · rw [if_pos hb]
          omega
        · rw [if_neg hb]
    rcases Nat.lt_or_ge k (l + 1) with h' | h'
    · exact le_trans (ih (by omega)) step
    · have : k = l + 1 := by omega
      rw [this]

theorem get_rd {m : Mtx R} {n i : Nat} {x y : R} {rc : Int} (h : Shp m n n) (hi : i < n) (he : mtxGet m i i x = ok (rc, y)) :
    rd m.data (i * n + i) = ok y := by
  unfold mtxGet at he
  rw [if_neg (by rw [h.1, h.2]; omega)] at he
  obtain ⟨a, ha, he⟩ := bind_ok he
  cases he
  rw [← ha, h.2]

theorem set_rd {m m' : Mtx R} {n i k : Nat} {x : R} {rc : Int} (h : Shp m n n) (hik : i < k) (hi : i < n)
    (he : mtxSet m i i x = ok (rc, m')) : rd m'.data (k * n + k) = rd m.data (k * n + k) := by
  unfold mtxSet at he
  rw [if_neg (by rw [h.1, h.2]; omega)] at he
  obtain ⟨d, hd, he⟩ := bind_ok he
  cases he
  show rd d _ = _
  rw [h.2] at hd
  unfold wr at hd
  by_cases hl : i * n + i < m.data.length
  · rw [if_pos hl] at hd
    cases hd
    unfold rd
    have hne : i * n + i ≠ k * n + k := by
      have : i * n ≤ k * n := Nat.mul_le_mul_right n (by omega)
      omega
    rw [List.getElem?_set_ne hne]
  · rw [if_neg hl] at hd
    cases hd

theorem sz_neg {v v' : Vec R} {rc : Int} (he : vecNeg v = ok (rc, v')) : v'.sz = v.sz := by
  unfold vecNeg at he
  obtain ⟨d, -, he⟩ := bind_ok he
  cases he
  rfl

theorem collect_eq {n : Nat} {x0 : R} {mi dst : Mtx R} {f : Vec R} {b r c : Nat} (hm : Shp mi n n) (hd : Shp dst r c) :
    (b + smallCount mi.data n n ≤ c → NoChk.collectEigen n x0 mi f dst b = collectEigen n x0 mi f dst b) ∧
    ∀ mi' f' dst' b', collectEigen n x0 mi f dst b = ok (mi', f', dst', b') →
      Shp mi' n n ∧ Shp dst' r c ∧ b' = b + smallCount mi.data n n := by
  unfold NoChk.collectEigen collectEigen
  have keep : ∀ h, h < n → ∀ s s' : R × Mtx R × Vec R × Mtx R × Nat, (Shp s.2.1 n n ∧ Shp s.2.2.2.1 r c ∧
      (∀ k, h ≤ k → rd s.2.1.data (k * n + k) = rd mi.data (k * n + k)) ∧ s.2.2.2.2 = b + smallCount mi.data n h) →
      (do
        let (x, mi, f, dst, b) := s
        let (_, x) ← mtxGet mi h h x
        if isSmall x then do
          let (_, mi) ← mtxSet mi h h (lit (-1))
          let (_, fd) ← mtxGetCol mi h f.data
          let (_, f) ← vecNeg { f with data := fd }
          let (_, dst) ← mtxSetCol dst b f.data
          return (x, mi, f, dst, b + 1)
        else return (x, mi, f, dst, b) : Out (R × Mtx R × Vec R × Mtx R × Nat)) = ok s' → (Shp s'.2.1 n n ∧ Shp s'.2.2.2.1 r c ∧
      (∀ k, h + 1 ≤ k → rd s'.2.1.data (k * n + k) = rd mi.data (k * n + k)) ∧ s'.2.2.2.2 = b + smallCount mi.data n (h + 1)) := by
    rintro h hh ⟨x, m1, f1, d1, b1⟩ s' ⟨i1, i2, i3, i4⟩ he
    have i1 : Shp m1 n n := i1
    have i4 : b1 = b + smallCount mi.data n h := i4
    obtain ⟨⟨_, y⟩, hy, he⟩ := bind_ok he
    have hr := get_rd i1 hh hy
    have hr0 : rd mi.data (h * n + h) = ok y := (i3 h (le_refl _)).symm.trans hr
    rw [smallCount_succ hr0]
    by_cases hb : isSmall y = true
    · simp only [if_pos hb] at he
      obtain ⟨⟨_, m2⟩, hm2, he⟩ := bind_ok he
      obtain ⟨⟨_, fd⟩, -, he⟩ := bind_ok he
      obtain ⟨⟨_, f2⟩, -, he⟩ := bind_ok he
      obtain ⟨⟨_, d2⟩, hd2, he⟩ := bind_ok he
      cases he
      refine ⟨shp_set i1 hm2, shp_setCol i2 hd2, fun k hk => ?_, ?_⟩
      · exact (set_rd i1 (by omega) hh hm2).trans (i3 k (by omega))
      · rw [if_pos hb]
        show b1 + 1 = _
        omega
    · simp only [if_neg hb] at he
      cases he
      refine ⟨i1, i2, fun k hk => i3 k (by omega), ?_⟩
      rw [if_neg hb]
      exact i4
  constructor
  · intro hle
    refine bind_congr_ok (forN_congr_inv (fun h (s : R × Mtx R × Vec R × Mtx R × Nat) => Shp s.2.1 n n ∧ Shp s.2.2.2.1 r c ∧
      (∀ k, h ≤ k → rd s.2.1.data (k * n + k) = rd mi.data (k * n + k)) ∧ s.2.2.2.2 = b + smallCount mi.data n h)
      ⟨hm, hd, fun _ _ => rfl, rfl⟩ ?_ keep).1 fun _ _ => rfl
    rintro h hh ⟨x, m1, f1, d1, b1⟩ ⟨i1, i2, i3, i4⟩
    have i1 : Shp m1 n n := i1
    have i2 : Shp d1 r c := i2
    have i4 : b1 = b + smallCount mi.data n h := i4
    refine bind_congr_ok (get_eq (by rw [i1.1]; exact hh) (by rw [i1.2]; exact hh)) fun y hy => ?_
    obtain ⟨_, y⟩ := y
    have hr0 : rd mi.data (h * n + h) = ok y := (i3 h (le_refl _)).symm.trans (get_rd i1 hh hy)
    by_cases hb : isSmall y = true
    · simp only [if_pos hb]
      have hc := smallCount_succ hr0
      rw [if_pos hb] at hc
      have hmono : smallCount mi.data n (h + 1) ≤ smallCount mi.data n n := smallCount_mono hh
      refine bind_congr_ok (set_eq (by rw [i1.1]; exact hh) (by rw [i1.2]; exact hh)) fun m2 hm2 => ?_
      obtain ⟨_, m2⟩ := m2
      have s2 := shp_set i1 hm2
      refine bind_congr_ok (getCol_eq (by rw [s2.2]; exact hh)) fun fd _ => ?_
      refine bind_congr_ok rfl fun f2 _ => ?_
      exact bind_congr_ok (setCol_eq (by rw [i2.2]; omega)) fun _ _ => rfl
    · simp only [if_neg hb]
  · intro mi' f' dst' b' he
    obtain ⟨⟨x, m1, f1, d1, b1⟩, hs, he⟩ := bind_ok he
    cases he
    have := (forN_congr_inv (f := fun h s => _) (fun h (s : R × Mtx R × Vec R × Mtx R × Nat) => Shp s.2.1 n n ∧ Shp s.2.2.2.1 r c ∧
      (∀ k, h ≤ k → rd s.2.1.data (k * n + k) = rd mi.data (k * n + k)) ∧ s.2.2.2.2 = b + smallCount mi.data n h)
      ⟨hm, hd, fun _ _ => rfl, rfl⟩ (fun _ _ _ _ => rfl) keep).2 _ hs
    exact ⟨this.1, this.2.1, this.2.2.2⟩

theorem count_ok {n : Nat} {x0 y : R} {mi : Mtx R} {count : Nat} (hm : Shp mi n n) (he : forN n (fun h (s : R × Nat) => do
      let (_, x) ← mtxGet mi h h s.1
      return (x, if isSmall x then s.2 + 1 else s.2)) (x0, 0) = ok (y, count)) : count = smallCount mi.data n n := by
  refine (forN_congr_inv (f := fun h s => _) (fun h (s : R × Nat) => s.2 = smallCount mi.data n h) rfl (fun _ _ _ _ => rfl) ?_).2 _ he
  rintro h hh ⟨x, cnt⟩ s' hs he
  obtain ⟨⟨_, z⟩, hz, he⟩ := bind_ok he
  cases he
  have hs : cnt = smallCount mi.data n h := hs
  rw [smallCount_succ (get_rd hm hh hz)]
  show (if isSmall z = true then cnt + 1 else cnt) = _
  rw [hs]

/-- The shapes of the matrices in the loop over the eigenvalues. -/
def EvInv (n : Nat) (s : Mtx R × Mtx R × Mtx R × Mtx R × Vec R × Mtx R × Nat) : Prop :=
  Shp s.1 n n ∧ Shp s.2.1 n n ∧ s.2.2.1.rows = n ∧ s.2.2.2.1.rows = n ∧ Shp s.2.2.2.2.2.1 n n

theorem eigenvectorsOf_ok {junk : Nat → R} {m : Mtx R} {orth : Bool} {o : R} {s s' : Mtx R × Mtx R × Mtx R × Mtx R × Vec R × Mtx R × Nat}
    (hsq : m.rows = m.cols) (hi : EvInv m.rows s) (he : eigenvectorsOf junk m orth o s = ok s') :
    EvInv m.rows s' ∧ (s'.2.2.2.2.2.2 ≤ m.rows → s.2.2.2.2.2.2 ≤ m.rows ∧ NoChk.eigenvectorsOf junk m orth o s = ok s') := by
  obtain ⟨mid, mi, ev, ev2, f, mev2, b⟩ := s
  obtain ⟨i1, i2, i3, i4, i5⟩ := hi
  have i1 : Shp mid m.rows m.rows := i1
  have i2 : Shp mi m.rows m.rows := i2
  have i3 : ev.rows = m.rows := i3
  have i4 : ev2.rows = m.rows := i4
  have i5 : Shp mev2 m.rows m.rows := i5
  unfold eigenvectorsOf at he
  unfold NoChk.eigenvectorsOf
  dsimp only
  obtain ⟨⟨_, id⟩, hid, he⟩ := bind_ok he
  have sid : Shp id m.rows m.rows := init_identity.2 _ _ hid
  obtain ⟨⟨_, id2⟩, hid2, he⟩ := bind_ok he
  have sid2 := shp_scalarMult sid hid2
  obtain ⟨⟨_, id3⟩, hid3, he⟩ := bind_ok he
  have sid3 := shp_binaryOpD sid2 hid3
  obtain ⟨⟨_, mid', mi'⟩, hg, he⟩ := bind_ok he
  have gr := gaussReduc_eq (junk := junk) (m := id3) (mi := mid) (mg := mi) (by rw [sid3.1, sid3.2]) (by rw [sid3.1, i2.1])
    (by rw [sid3.2, i2.2]) (by rw [sid3.1, i1.1]) (by rw [sid3.1, i1.2])
  obtain ⟨g1, g2⟩ := gr.2 _ _ _ hg
  have g1 : Shp mid' m.rows m.rows := ⟨g1.1.trans i1.1, g1.2.trans i1.2⟩
  have g2 : Shp mi' m.rows m.rows := ⟨g2.1.trans sid3.1, g2.2.trans sid3.1⟩
  rw [init_identity.1, hid, ok_bind]
  dsimp only
  rw [hid2, ok_bind]
  dsimp only
  have e3 : NoChk.mtxAddD id2 m = mtxAddD id2 m := binaryOpD_eq sid2.1 (sid2.2.trans hsq)
  rw [e3, hid3, ok_bind]
  dsimp only
  rw [gr.1, hg, ok_bind]
  dsimp only
  by_cases ho : orth = true
  · rw [if_pos ho]
    simp only [if_pos ho] at he
    obtain ⟨⟨y, count⟩, hc, he⟩ := bind_ok he
    have hcount := count_ok g2 hc
    obtain ⟨⟨mi2, f2, ev', bb⟩, hcol, he⟩ := bind_ok he
    have sev : Shp { ev with cols := count } m.rows count := ⟨i3, rfl⟩
    have sev2 : Shp { ev2 with cols := count } m.rows count := ⟨i4, rfl⟩
    have col := collect_eq (x0 := junk 0) (f := f) (b := 0) g2 sev
    obtain ⟨c1, c2, c3⟩ := col.2 _ _ _ _ hcol
    obtain ⟨⟨_, ev2'⟩, hgs, he⟩ := bind_ok he
    have sgs := gramSchmidt_shp sev2 hgs
    obtain ⟨⟨_, ev''⟩, hcn, he⟩ := bind_ok he
    have scn := colsNorm_shp c2 hcn
    obtain ⟨⟨f3, mev3, b3⟩, hl, he⟩ := bind_ok he
    cases he
    have inv : ∀ i, i < count → ∀ u u' : Vec R × Mtx R × Nat, (Shp u.2.1 m.rows m.rows ∧ u.2.2 = b + i) → (do
        let (f, mev2, b) := u
        let (_, fd) ← mtxGetCol ev'' i f.data
        let (_, mev2) ← mtxSetCol mev2 b fd
        return ({ f with data := fd }, mev2, b + 1) : Out (Vec R × Mtx R × Nat)) = ok u' → (Shp u'.2.1 m.rows m.rows ∧ u'.2.2 = b + (i + 1)) := by
      rintro i hi ⟨f, mv, b1⟩ u' ⟨k1, k2⟩ he
      obtain ⟨⟨_, fd⟩, -, he⟩ := bind_ok he
      obtain ⟨⟨_, mv'⟩, hmv, he⟩ := bind_ok he
      cases he
      refine ⟨shp_setCol k1 hmv, ?_⟩
      have k2 : b1 = b + i := k2
      show b1 + 1 = b + (i + 1)
      omega
    have fin := (forN_congr_inv (f := fun i u => _) (fun i (u : Vec R × Mtx R × Nat) => Shp u.2.1 m.rows m.rows ∧ u.2.2 = b + i)
      ⟨i5, rfl⟩ (fun _ _ _ _ => rfl) inv).2 _ hl
    have f1 : Shp mev3 m.rows m.rows := fin.1
    have fb : b3 = b + count := fin.2
    refine ⟨⟨g1, c1, scn.1, sgs.1, f1⟩, fun hb => ?_⟩
    have hb : b3 ≤ m.rows := hb
    refine ⟨by show b ≤ m.rows; omega, ?_⟩
    have ec : forN m.rows (fun h (s : R × Nat) => (do
        let (_, x) ← NoChk.mtxGet mi' h h s.1
        return (x, if isSmall x then s.2 + 1 else s.2) : Out (R × Nat))) (junk 0, 0) = ok (y, count) := by
      rw [← hc]
      refine forN_congr fun h hh s => ?_
      exact bind_congr_ok (get_eq (by rw [g2.1]; exact hh) (by rw [g2.2]; exact hh)) fun _ _ => rfl
    rw [ec, ok_bind]
    dsimp only
    rw [col.1 (by omega), hcol, ok_bind]
    dsimp only
    rw [gramSchmidt_eq (mort := { ev2 with cols := count }) (by rw [c2.2]), hgs, ok_bind]
    dsimp only
    rw [colsNorm_eq (by rw [sgs.2, c2.2]), hcn, ok_bind]
    dsimp only
    have el := (forN_congr_inv (n := count) (s := (f2, mev2, b))
      (f := fun gi (s : Vec R × Mtx R × Nat) => (do
        let (f, mev2, b) := s
        let (_, fd) ← NoChk.mtxGetCol ev'' gi f.data
        let (_, mev2) ← NoChk.mtxSetCol mev2 b fd
        return ({ f with data := fd }, mev2, b + 1) : Out (Vec R × Mtx R × Nat)))
      (fun i (u : Vec R × Mtx R × Nat) => Shp u.2.1 m.rows m.rows ∧ u.2.2 = b + i) ⟨i5, rfl⟩ (by
        rintro i hi ⟨f, mv, b1⟩ ⟨k1, k2⟩
        have k1 : Shp mv m.rows m.rows := k1
        have k2 : b1 = b + i := k2
        refine bind_congr_ok (getCol_eq (by rw [scn.2]; exact hi)) fun a _ => ?_
        exact bind_congr_ok (setCol_eq (by rw [k1.2]; omega)) fun _ _ => rfl) inv).1
    rw [el, hl, ok_bind]
    rfl
  · rw [if_neg ho]
    simp only [if_neg ho] at he
    obtain ⟨⟨mi2, f2, mev3, b3⟩, hcol, he⟩ := bind_ok he
    cases he
    have col := collect_eq (x0 := junk 0) (f := f) (b := b) g2 i5
    obtain ⟨c1, c2, c3⟩ := col.2 _ _ _ _ hcol
    refine ⟨⟨g1, c1, i3, i4, c2⟩, fun hb => ?_⟩
    have hb : b3 ≤ m.rows := hb
    refine ⟨by show b ≤ m.rows; omega, ?_⟩
    rw [col.1 (by omega), hcol, ok_bind]
    rfl

theorem eigenvectors_ok {fuel : Nat} {junk : Nat → R} {m mev : Mtx R} {iter : Nat} {orth : Bool} {r : Int × Mtx R}
    (hsq : m.rows = m.cols) (h2 : 2 ≤ m.rows ∨ mtxIsSym (junk 0) m ≠ ok false)
    (he : mtxEigenvectors fuel junk m mev iter orth = ok r) :
    r.2.rows = mev.rows ∧ (r.1 = 0 → r.2.cols = m.rows) ∧
    (r.2.cols ≤ m.rows → NoChk.mtxEigenvectors fuel junk m mev iter orth = ok r) := by
  unfold mtxEigenvectors at he
  unfold NoChk.mtxEigenvectors
  by_cases h0 : m.rows = 0
  · rw [if_pos h0] at he
    cases he
  rw [if_neg h0] at he ⊢
  obtain ⟨⟨_, mev2⟩, hmev2, he⟩ := bind_ok he
  obtain ⟨⟨_, o⟩, ho, he⟩ := bind_ok he
  obtain ⟨⟨_, k⟩, hk, he⟩ := bind_ok he
  obtain ⟨⟨o1, n⟩, hd, he⟩ := bind_ok he
  obtain ⟨⟨a1, a2, a3, a4, f, mv, b⟩, hl, he⟩ := bind_ok he
  obtain ⟨⟨fd, mev'⟩, hc, he⟩ := bind_ok he
  have smev2 : Shp mev2 m.rows m.rows := init_none.2 _ _ hmev2
  have step : ∀ g, g < n → ∀ u u', EvInv m.rows u → (do
      let og ← rd o1.data g
      eigenvectorsOf junk m orth og u) = ok u' → EvInv m.rows u' ∧
      (u'.2.2.2.2.2.2 ≤ m.rows → u.2.2.2.2.2.2 ≤ m.rows ∧ (do
        let og ← rd o1.data g
        NoChk.eigenvectorsOf junk m orth og u) = ok u') := by
    intro g hg u u' hu he
    obtain ⟨og, hog, he⟩ := bind_ok he
    have := eigenvectorsOf_ok hsq hu he
    refine ⟨this.1, fun hb => ⟨(this.2 hb).1, ?_⟩⟩
    rw [hog, ok_bind]
    exact (this.2 hb).2
  have hinit : EvInv m.rows (Mtx.uninit junk m.rows m.rows, Mtx.uninit junk m.rows m.rows, Mtx.uninit junk m.rows m.rows,
      Mtx.uninit junk m.rows m.rows, Vec.uninit junk m.rows, mev2, 0) := ⟨shp_self _, shp_self _, rfl, rfl, smev2⟩
  have fin : EvInv m.rows (a1, a2, a3, a4, f, mv, b) := forN_ok (EvInv m.rows) hinit (fun g hg u u' hu he => (step g hg u u' hu he).1) hl
  obtain ⟨-, -, -, -, smv⟩ := fin
  have smv : Shp mv m.rows m.rows := smv
  have copy : ∀ i, i < b → ∀ u u' : List R × Mtx R, Shp u.2 mev.rows b → (do
      let (_, fd) ← mtxGetCol mv i u.1
      let (_, mev) ← mtxSetCol u.2 i fd
      return (fd, mev) : Out (List R × Mtx R)) = ok u' → Shp u'.2 mev.rows b := by
    rintro i hi ⟨fd, me⟩ u' hu he
    obtain ⟨⟨_, fd'⟩, -, he⟩ := bind_ok he
    obtain ⟨⟨_, me'⟩, hme, he⟩ := bind_ok he
    cases he
    exact shp_setCol hu hme
  have smev' : Shp mev' mev.rows b := forN_ok (fun s => Shp s.2 mev.rows b) ⟨rfl, rfl⟩ copy hc
  have hr : r.2 = mev' ∧ (r.1 = 0 → b = m.cols) := by
    by_cases hb : b ≠ m.cols
    · simp only [if_pos hb] at he
      cases he
      refine ⟨rfl, fun h => ?_⟩
      have : (-EEIGENSIZE : Int) = 0 := h
      unfold EEIGENSIZE at this
      omega
    · simp only [if_neg hb] at he
      cases he
      exact ⟨rfl, fun _ => by omega⟩
  refine ⟨by rw [hr.1, smev'.1], fun h => ?_, fun hle => ?_⟩
  · rw [hr.1, smev'.2, hr.2 h, hsq]
  rw [hr.1, smev'.2] at hle
  rw [init_none.1, hmev2, ok_bind]
  dsimp only
  rw [ho, ok_bind]
  dsimp only
  rw [eigenvalues_eq hsq h2, hk, ok_bind]
  dsimp only
  rw [hd, ok_bind]
  dsimp only
  have back := (forN_ok_back (EvInv m.rows) (fun u => u.2.2.2.2.2.2 ≤ m.rows) hinit (fun g hg u u' hu he => (step g hg u u' hu he).1)
    (fun g hg u u' hu he hq => (step g hg u u' hu he).2 hq) hl hle).2
  rw [back, ok_bind]
  dsimp only
  have ec := (forN_congr_inv (n := b) (s := (f.data, ({ mev with cols := b } : Mtx R)))
    (f := fun s (st : List R × Mtx R) => (do
      let (_, fd) ← NoChk.mtxGetCol mv s st.1
      let (_, mev) ← NoChk.mtxSetCol st.2 s fd
      return (fd, mev) : Out (List R × Mtx R))) (fun _ s => Shp s.2 mev.rows b) ⟨rfl, rfl⟩ (by
        rintro i hi ⟨fd, me⟩ hu
        have hu : Shp me mev.rows b := hu
        refine bind_congr_ok (getCol_eq (by rw [smv.2]; omega)) fun a _ => ?_
        exact bind_congr_ok (setCol_eq (by rw [hu.2]; exact hi)) fun _ _ => rfl) copy).1
  rw [ec, hc, ok_bind]
  exact he

/-! ### Singular values and pseudoinverse -/

theorem bind_imp {α β : Type} {x y : Out α} {f g : α → Out β} {r : β} (h : ∀ a, x = ok a → y = ok a)
    (hf : ∀ a, x = ok a → f a = ok r → g a = ok r) (he : (x >>= f) = ok r) : (y >>= g) = ok r := by
  obtain ⟨a, ha, he⟩ := bind_ok he
  rw [h a ha, ok_bind]
  exact hf a ha he

/-- `zsl_mtx_eigenvectors` finds a full set of eigenvectors of `a`, in the output `mev`. -/
def FullEig (fuel : Nat) (junk : Nat → R) (a mev : Mtx R) (iter : Nat) : Prop :=
  ∀ r, mtxEigenvectors fuel junk a mev iter true = ok r → r.1 = 0

/-- A one by one matrix counts as symmetric. Comparisons with a number of the library that is not one could differ. -/
def OneSym (junk : Nat → R) : Prop := ∀ a : Mtx R, a.rows = 1 → a.cols = 1 → mtxIsSym (junk 0) a ≠ ok false

theorem two_or_sym {junk : Nat → R} (h : OneSym junk) {a : Mtx R} {n : Nat} (ha : Shp a n n) (hn : n ≠ 0) :
    2 ≤ a.rows ∨ mtxIsSym (junk 0) a ≠ ok false := by
  by_cases h1 : n = 1
  · exact Or.inr (h a (ha.1.trans h1) (ha.2.trans h1))
  · left
    rw [ha.1]
    omega

theorem fullEig_ok {fuel : Nat} {junk : Nat → R} {a mev : Mtx R} {iter n : Nat} {r : Int × Mtx R} (h1 : OneSym junk) (ha : Shp a n n)
    (hn : n ≠ 0) (hf : FullEig fuel junk a mev iter) (he : mtxEigenvectors fuel junk a mev iter true = ok r) :
    NoChk.mtxEigenvectors fuel junk a mev iter true = ok r ∧ Shp r.2 mev.rows n := by
  have := eigenvectors_ok (ha.1.trans ha.2.symm) (two_or_sym h1 ha hn) he
  have hc := (this.2.1 (hf r he)).trans ha.1
  exact ⟨this.2.2 (by rw [hc, ha.1]), this.1, hc⟩

theorem svd_ok {fuel : Nat} {junk : Nat → R} {m u e v : Mtx R} {iter : Nat} {r : Int × Mtx R × Mtx R × Mtx R} (h1 : OneSym junk)
    (hu : m.rows ≤ u.cols) (her : m.rows ≤ e.rows ∨ m.cols ≤ e.rows) (hec : m.rows ≤ e.cols ∨ m.cols ≤ e.cols)
    (hful : ∀ t a b : Mtx R, ∀ c1 c2 c3 : Int, mtxTrans junk m (Mtx.uninit junk m.cols m.rows) = ok (c1, t) →
      mtxMult m t (Mtx.uninit junk m.rows m.rows) = ok (c2, a) → mtxMult t m (Mtx.uninit junk m.cols m.cols) = ok (c3, b) →
      FullEig fuel junk b v iter ∧ FullEig fuel junk a (Mtx.uninit junk m.rows m.rows) iter)
    (he : mtxSvd fuel junk m u e v iter = ok r) :
    NoChk.mtxSvd fuel junk m u e v iter = ok r ∧ Shp r.2.1 u.rows u.cols ∧ Shp r.2.2.1 e.rows e.cols ∧ Shp r.2.2.2 v.rows m.cols := by
  unfold mtxSvd at he
  unfold NoChk.mtxSvd
  by_cases h0 : m.rows = 0 ∨ m.cols = 0
  · rw [if_pos h0] at he
    cases he
  rw [if_neg h0] at he ⊢
  obtain ⟨⟨c1, t⟩, ht, he⟩ := bind_ok he
  have st := shp_trans (b := Mtx.uninit junk m.cols m.rows) (shp_self _) ht
  have st : Shp t m.cols m.rows := st
  obtain ⟨⟨c2, a⟩, ha, he⟩ := bind_ok he
  have sa : Shp a m.rows m.rows := shp_mult (c := Mtx.uninit junk m.rows m.rows) (shp_self _) ha
  obtain ⟨⟨c3, b⟩, hb, he⟩ := bind_ok he
  have sb : Shp b m.cols m.cols := shp_mult (c := Mtx.uninit junk m.cols m.cols) (shp_self _) hb
  obtain ⟨f1, f2⟩ := hful t a b c1 c2 c3 ht ha hb
  rw [trans_eq rfl rfl, ht, ok_bind]
  dsimp only
  rw [mult_eq (a := m) (b := t) (c := Mtx.uninit junk m.rows m.rows) st.1.symm rfl st.2.symm, ha, ok_bind]
  dsimp only
  rw [mult_eq (a := t) (b := m) (c := Mtx.uninit junk m.cols m.cols) st.2 st.1.symm rfl, hb, ok_bind]
  dsimp only at he ⊢
  have hmin : ∃ mn, mn = (if m.rows ≤ m.cols then m.rows else m.cols) ∧ mn ≤ m.rows ∧ mn ≤ m.cols := by
    refine ⟨_, rfl, ?_⟩
    by_cases hc : m.rows ≤ m.cols
    · rw [if_pos hc]
      exact ⟨le_refl _, hc⟩
    · rw [if_neg hc]
      omega
  obtain ⟨mn, hmn, hm1, hm2⟩ := hmin
  rw [← hmn] at he ⊢
  obtain ⟨⟨_, ev⟩, hev, he⟩ := bind_ok he
  have eev : (if mn < m.cols then NoChk.mtxEigenvalues fuel junk a (Vec.uninit junk mn) iter
      else NoChk.mtxEigenvalues fuel junk b (Vec.uninit junk mn) iter) = (if mn < m.cols then mtxEigenvalues fuel junk a (Vec.uninit junk mn) iter
      else mtxEigenvalues fuel junk b (Vec.uninit junk mn) iter) := by
    rw [eigenvalues_eq (sa.1.trans sa.2.symm) (two_or_sym h1 sa (by omega)), eigenvalues_eq (sb.1.trans sb.2.symm) (two_or_sym h1 sb (by omega))]
  rw [eev, hev, ok_bind]
  dsimp only
  obtain ⟨⟨_, e1⟩, he1, he⟩ := bind_ok he
  have se1 := init_none.2 _ _ he1
  rw [init_none.1, he1, ok_bind]
  dsimp only
  obtain ⟨e2, he2, he⟩ := bind_ok he
  have el := forN_congr_inv (n := mn) (s := e1) (f := fun g (e : Mtx R) => (do
      let a ← rd ev.data g
      let (_, e) ← NoChk.mtxSet e g g (CReal.sqrt a)
      return e : Out (Mtx R))) (g := fun g (e : Mtx R) => (do
      let a ← rd ev.data g
      let (_, e) ← mtxSet e g g (CReal.sqrt a)
      return e : Out (Mtx R))) (fun _ s => Shp s e.rows e.cols) se1
    (by
      intro g hg s hs
      refine bind_congr_ok rfl fun x _ => ?_
      exact bind_congr_ok (set_eq (by rw [hs.1]; omega) (by rw [hs.2]; omega)) fun _ _ => rfl)
    (by
      intro g hg s s' hs he
      obtain ⟨x, -, he⟩ := bind_ok he
      obtain ⟨⟨_, s1⟩, hs1, he⟩ := bind_ok he
      cases he
      exact shp_set hs hs1)
  have se2 := el.2 _ he2
  rw [el.1, he2, ok_bind]
  obtain ⟨⟨_, v1⟩, hv1, he⟩ := bind_ok he
  obtain ⟨q1, q2⟩ := fullEig_ok h1 sb (by omega) f1 hv1
  have q2 : Shp v1 v.rows m.cols := q2
  rw [q1, ok_bind]
  dsimp only
  obtain ⟨⟨d1, ui1, u1, pu⟩, hl, he⟩ := bind_ok he
  have ul := forN_congr_inv (n := mn) (s := (junk 0, junkArr junk m.rows, u, 0)) (f := fun i (s : R × List R × Mtx R × Nat) => (do
      let (d, ui, u, pu) := s
      let (_, ui) ← NoChk.mtxGetCol v1 i ui
      let (_, ui2) ← mtxFromArr (Mtx.uninit junk m.cols 1) ui
      let (_, d) ← NoChk.mtxGet e2 i i d
      let (_, ui3) ← NoChk.mtxMult m ui2 (Mtx.uninit junk m.rows 1)
      if isSmall d then return (d, ui, u, pu + 1)
      else do
        let (_, ui3) ← mtxScalarMultD ui3 (lit 1 / d)
        let (_, uv) ← vecFromArr ⟨m.rows, ui⟩ ui3.data
        let (_, u) ← NoChk.mtxSetCol u i uv.data
        return (d, uv.data, u, pu) : Out (R × List R × Mtx R × Nat)))
    (g := fun i (s : R × List R × Mtx R × Nat) => (do
      let (d, ui, u, pu) := s
      let (_, ui) ← mtxGetCol v1 i ui
      let (_, ui2) ← mtxFromArr (Mtx.uninit junk m.cols 1) ui
      let (_, d) ← mtxGet e2 i i d
      let (_, ui3) ← mtxMult m ui2 (Mtx.uninit junk m.rows 1)
      if isSmall d then return (d, ui, u, pu + 1)
      else do
        let (_, ui3) ← mtxScalarMultD ui3 (lit 1 / d)
        let (_, uv) ← vecFromArr ⟨m.rows, ui⟩ ui3.data
        let (_, u) ← mtxSetCol u i uv.data
        return (d, uv.data, u, pu) : Out (R × List R × Mtx R × Nat)))
    (fun _ s => Shp s.2.2.1 u.rows u.cols) (shp_self u)
    (by
      rintro i hi ⟨d, ui, uu, pu⟩ hs
      have hs : Shp uu u.rows u.cols := hs
      refine bind_congr_ok (getCol_eq (by rw [q2.2]; omega)) fun x _ => ?_
      obtain ⟨_, x⟩ := x
      refine bind_congr_ok rfl fun y hy => ?_
      obtain ⟨_, y⟩ := y
      have sy : Shp y m.cols 1 := shp_fromArr (a := Mtx.uninit junk m.cols 1) (shp_self _) hy
      refine bind_congr_ok (get_eq (by rw [se2.1]; omega) (by rw [se2.2]; omega)) fun z _ => ?_
      obtain ⟨_, z⟩ := z
      refine bind_congr_ok (mult_eq sy.1.symm rfl sy.2.symm) fun w _ => ?_
      obtain ⟨_, w⟩ := w
      by_cases hsm : isSmall z = true
      · simp only [if_pos hsm]
      · simp only [if_neg hsm]
        refine bind_congr_ok rfl fun p _ => ?_
        refine bind_congr_ok rfl fun q _ => ?_
        exact bind_congr_ok (setCol_eq (by rw [hs.2]; omega)) fun _ _ => rfl)
    (by
      rintro i hi ⟨d, ui, uu, pu⟩ s' hs he
      have hs : Shp uu u.rows u.cols := hs
      obtain ⟨⟨_, x⟩, -, he⟩ := bind_ok he
      obtain ⟨⟨_, y⟩, -, he⟩ := bind_ok he
      obtain ⟨⟨_, z⟩, -, he⟩ := bind_ok he
      obtain ⟨⟨_, w⟩, -, he⟩ := bind_ok he
      by_cases hsm : isSmall z = true
      · simp only [if_pos hsm] at he
        cases he
        exact hs
      · simp only [if_neg hsm] at he
        obtain ⟨⟨_, p⟩, -, he⟩ := bind_ok he
        obtain ⟨⟨_, q⟩, -, he⟩ := bind_ok he
        obtain ⟨⟨_, u2⟩, hu2, he⟩ := bind_ok he
        cases he
        exact shp_setCol hs hu2)
  have su1 : Shp u1 u.rows u.cols := ul.2 _ hl
  rw [ul.1, hl, ok_bind]
  dsimp only at he ⊢
  obtain ⟨⟨_, up⟩, hup, he⟩ := bind_ok he
  obtain ⟨p1, p2⟩ := fullEig_ok h1 sa (by omega) f2 hup
  have p2 : Shp up m.rows m.rows := p2
  rw [p1, ok_bind]
  dsimp only
  obtain ⟨⟨hd, u3⟩, hlast, he⟩ := bind_ok he
  have ll := forN_congr_inv (n := m.rows - (mn - pu)) (s := (junkArr junk m.rows, u1))
    (f := fun f' (s : List R × Mtx R) => (do
      let f := mn - pu + f'
      let (_, hu) ← NoChk.mtxGetCol up f s.1
      let (_, u) ← NoChk.mtxSetCol s.2 f hu
      return (hu, u) : Out (List R × Mtx R)))
    (g := fun f' (s : List R × Mtx R) => (do
      let f := mn - pu + f'
      let (_, hu) ← mtxGetCol up f s.1
      let (_, u) ← mtxSetCol s.2 f hu
      return (hu, u) : Out (List R × Mtx R)))
    (fun _ s => Shp s.2 u.rows u.cols) su1
    (by
      rintro i hi ⟨x, uu⟩ hs
      have hs : Shp uu u.rows u.cols := hs
      refine bind_congr_ok (getCol_eq (by rw [p2.2]; omega)) fun x _ => ?_
      exact bind_congr_ok (setCol_eq (by rw [hs.2]; omega)) fun _ _ => rfl)
    (by
      rintro i hi ⟨x, uu⟩ s' hs he
      obtain ⟨⟨_, y⟩, -, he⟩ := bind_ok he
      obtain ⟨⟨_, z⟩, hz, he⟩ := bind_ok he
      cases he
      exact shp_setCol hs hz)
  rw [ll.1, hlast, ok_bind]
  cases he
  exact ⟨rfl, ll.2 _ hlast, se2, q2⟩

theorem pinv_ok {fuel : Nat} {junk : Nat → R} {m pinv : Mtx R} {iter : Nat} {r : Int × Mtx R} (h1 : OneSym junk)
    (hp : Shp pinv m.cols m.rows)
    (hful : ∀ t a b : Mtx R, ∀ c1 c2 c3 : Int, mtxTrans junk m (Mtx.uninit junk m.cols m.rows) = ok (c1, t) →
      mtxMult m t (Mtx.uninit junk m.rows m.rows) = ok (c2, a) → mtxMult t m (Mtx.uninit junk m.cols m.cols) = ok (c3, b) →
      FullEig fuel junk b (Mtx.uninit junk m.cols m.cols) iter ∧ FullEig fuel junk a (Mtx.uninit junk m.rows m.rows) iter)
    (he : mtxPinv fuel junk m pinv iter = ok r) : NoChk.mtxPinv fuel junk m pinv iter = ok r := by
  unfold mtxPinv at he
  unfold NoChk.mtxPinv
  by_cases h0 : m.rows = 0 ∨ m.cols = 0
  · rw [if_pos h0] at he
    cases he
  rw [if_neg h0] at he ⊢
  obtain ⟨⟨_, u, e, v⟩, hs, he⟩ := bind_ok he
  obtain ⟨s1, su, se, sv⟩ := svd_ok (u := Mtx.uninit junk m.rows m.rows) (e := Mtx.uninit junk m.rows m.cols)
    (v := Mtx.uninit junk m.cols m.cols) h1 (le_refl _) (Or.inl (le_refl _)) (Or.inr (le_refl _)) hful hs
  have su : Shp u m.rows m.rows := su
  have se : Shp e m.rows m.cols := se
  have sv : Shp v m.cols m.cols := sv
  rw [s1, ok_bind]
  dsimp only at he ⊢
  obtain ⟨⟨_, ut⟩, hut, he⟩ := bind_ok he
  have sut : Shp ut m.rows m.rows := shp_trans (b := Mtx.uninit junk m.rows m.rows) (shp_self _) hut
  rw [trans_eq (a := u) (b := Mtx.uninit junk m.rows m.rows) su.1 su.2, hut, ok_bind]
  dsimp only at he ⊢
  obtain ⟨e1, he1, he⟩ := bind_ok he
  have inv : ∀ mn, mn ≤ m.rows → mn ≤ m.cols → NoChk.pinvInvert (junk 0) mn e = pinvInvert (junk 0) mn e ∧
      ∀ e', pinvInvert (junk 0) mn e = ok e' → Shp e' m.rows m.cols := by
    intro mn hm1 hm2
    unfold NoChk.pinvInvert pinvInvert
    have keep : ∀ g, g < mn → ∀ s s' : R × Mtx R, Shp s.2 m.rows m.cols → (do
        let (_, x) ← mtxGet s.2 g g s.1
        if CReal.lt x (lit 1e-6) || CReal.gt x (-lit 1e-6) then do
          let x := lit 1 / x
          let (_, e) ← mtxSet s.2 g g x
          return (x, e)
        else return (x, s.2) : Out (R × Mtx R)) = ok s' → Shp s'.2 m.rows m.cols := by
      rintro g hg ⟨x, e⟩ s' hs he
      obtain ⟨⟨_, y⟩, -, he⟩ := bind_ok he
      by_cases hb : (CReal.lt y (lit 1e-6) || CReal.gt y (-lit 1e-6)) = true
      · simp only [if_pos hb] at he
        obtain ⟨⟨_, e2⟩, he2, he⟩ := bind_ok he
        cases he
        exact shp_set hs he2
      · simp only [if_neg hb] at he
        cases he
        exact hs
    constructor
    · refine bind_congr_ok (forN_congr_inv (fun _ s => Shp s.2 m.rows m.cols) se ?_ keep).1 fun _ _ => rfl
      rintro g hg ⟨x, e⟩ hs
      have hs : Shp e m.rows m.cols := hs
      refine bind_congr_ok (get_eq (by rw [hs.1]; omega) (by rw [hs.2]; omega)) fun y _ => ?_
      obtain ⟨_, y⟩ := y
      by_cases hb : (CReal.lt y (lit 1e-6) || CReal.gt y (-lit 1e-6)) = true
      · simp only [if_pos hb]
        exact bind_congr_ok (set_eq (by rw [hs.1]; omega) (by rw [hs.2]; omega)) fun _ _ => rfl
      · simp only [if_neg hb]
    · intro e' he
      obtain ⟨⟨_, e2⟩, he2, he⟩ := bind_ok he
      cases he
      exact forN_ok (fun s => Shp s.2 m.rows m.cols) se keep he2
  have hmin : (if m.rows ≤ m.cols then m.rows else m.cols) ≤ m.rows ∧ (if m.rows ≤ m.cols then m.rows else m.cols) ≤ m.cols := by
    by_cases hc : m.rows ≤ m.cols
    · rw [if_pos hc]
      exact ⟨le_refl _, hc⟩
    · rw [if_neg hc]
      omega
  obtain ⟨iv1, iv2⟩ := inv _ hmin.1 hmin.2
  have se1 := iv2 _ he1
  rw [iv1, he1, ok_bind]
  obtain ⟨⟨_, et⟩, het, he⟩ := bind_ok he
  have set' : Shp et m.cols m.rows := shp_trans (b := Mtx.uninit junk m.cols m.rows) (shp_self _) het
  rw [trans_eq (a := e1) (b := Mtx.uninit junk m.cols m.rows) se1.1 se1.2, het, ok_bind]
  dsimp only at he ⊢
  obtain ⟨⟨_, pa⟩, hpa, he⟩ := bind_ok he
  have spa : Shp pa m.cols m.rows := shp_mult (c := Mtx.uninit junk m.cols m.rows) (shp_self _) hpa
  rw [mult_eq (a := v) (b := et) (c := Mtx.uninit junk m.cols m.rows) (sv.2.trans set'.1.symm) sv.1.symm set'.2.symm, hpa, ok_bind]
  dsimp only at he ⊢
  obtain ⟨⟨_, pi⟩, hpi, he⟩ := bind_ok he
  rw [mult_eq (spa.2.trans sut.1.symm) (hp.1.trans spa.1.symm) (hp.2.trans sut.2.symm), hpi, ok_bind]
  exact he

end Verif.NoChkL
