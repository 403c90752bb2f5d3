import Verif.Model.NoChk

/-!
# Checked and unchecked calls agree inside the bounds

Lemmas for the comparison of the functions with bounds checks on and off: loops whose bodies agree on the states that are
reached, shapes that calls leave unchanged, and element access.
-/

set_option linter.unusedSectionVars false

namespace Verif.NoChkL

open Out

/-! ### Equal runs -/

theorem bind_congr_ok {α β : Type} {x y : Out α} {f g : α → Out β} (h : x = y)
    (hf : ∀ a, y = ok a → f a = g a) : (x >>= f) = (y >>= g) := by
  subst h
  cases hx : x with
  | ok a => exact hf a hx
  | ub => rfl

/-- Loop bodies that agree on the states an invariant allows give the same loop. -/
theorem forN_congr_inv {σ : Type} {n : Nat} {f g : Nat → σ → Out σ} {s : σ} (P : Nat → σ → Prop) (h0 : P 0 s)
    (h : ∀ i, i < n → ∀ t, P i t → f i t = g i t)
    (hp : ∀ i, i < n → ∀ t t', P i t → g i t = ok t' → P (i + 1) t') :
    forN n f s = forN n g s ∧ ∀ t, forN n g s = ok t → P n t := by
  induction n with
  | zero =>
    refine ⟨rfl, fun t ht => ?_⟩
    rw [forN_zero] at ht
    cases ht
    exact h0
  | succ n ih =>
    obtain ⟨he, hi⟩ := ih (fun i hi => h i (by omega)) (fun i hi => hp i (by omega))
    rw [forN_succ, forN_succ, he]
    cases hg : forN n g s with
    | ub => exact ⟨rfl, fun t ht => by simp at ht⟩
    | ok t =>
      refine ⟨h n (by omega) t (hi t hg), fun t' ht' => ?_⟩
      exact hp n (by omega) t t' (hi t hg) ht'

/-- What is known after a loop with `return`: `P` of the state if it ran to the end, `Q` of the value if it returned. -/
def _root_.Verif.Ctl.Ends {σ ρ : Type} (P : σ → Prop) (Q : ρ → Prop) : Ctl σ ρ → Prop
  | .next s => P s
  | .ret r => Q r

/-- The same for loops with `return`; `Q` is what is known of a returned value. -/
theorem forRet_congr_inv {σ ρ : Type} {n : Nat} {f g : Nat → σ → Out (Ctl σ ρ)} {s : σ} (P : Nat → σ → Prop) (Q : ρ → Prop)
    (h0 : P 0 s) (h : ∀ i, i < n → ∀ t, P i t → f i t = g i t)
    (hp : ∀ i, i < n → ∀ t, P i t → ∀ c, g i t = ok c → c.Ends (P (i + 1)) Q) :
    forRet n f s = forRet n g s ∧ ∀ c, forRet n g s = ok c → c.Ends (P n) Q := by
  induction n with
  | zero =>
    refine ⟨rfl, fun t ht => ?_⟩
    rw [forRet_zero] at ht
    cases ht
    exact h0
  | succ n ih =>
    obtain ⟨he, hi⟩ := ih (fun i hi => h i (by omega)) (fun i hi => hp i (by omega))
    rw [forRet, forRet, he]
    cases hg : forRet n g s with
    | ub => exact ⟨rfl, fun t ht => by simp at ht⟩
    | ok c =>
      have hc := hi c hg
      cases c with
      | next t => exact ⟨h n (by omega) t hc, fun c' hc' => hp n (by omega) t hc c' hc'⟩
      | ret r =>
        refine ⟨rfl, fun c' hc' => ?_⟩
        have : c' = .ret r := by
          simp only [ok_bind] at hc'
          cases hc'
          rfl
        subst this
        exact hc

theorem bind_ok {α β : Type} {x : Out α} {f : α → Out β} {b : β} (h : (x >>= f) = ok b) : ∃ a, x = ok a ∧ f a = ok b := by
  cases x with
  | ok a => exact ⟨a, rfl, h⟩
  | ub => exact absurd h (by simp)

/-- What holds at the end of a loop that finishes. -/
theorem forN_ok {σ : Type} {n : Nat} {f : Nat → σ → Out σ} {s t : σ} (P : σ → Prop) (h0 : P s)
    (hp : ∀ i, i < n → ∀ t t', P t → f i t = ok t' → P t') (h : forN n f s = ok t) : P t :=
  (forN_congr_inv (f := f) (fun _ => P) h0 (fun _ _ _ _ => rfl) hp).2 t h

/-! ### Shapes -/

variable {R : Type} [CReal R]

/-- The matrix has `r` rows and `c` columns. -/
def Shp (m : Mtx R) (r c : Nat) : Prop := m.rows = r ∧ m.cols = c

theorem shp_self (m : Mtx R) : Shp m m.rows m.cols := ⟨rfl, rfl⟩

theorem shp_set {m m' : Mtx R} {i j : Nat} {x : R} {rc : Int} {r c : Nat} (h : Shp m r c)
    (he : mtxSet m i j x = ok (rc, m')) : Shp m' r c := by
  unfold mtxSet at he
  by_cases hb : i ≥ m.rows ∨ j ≥ m.cols
  · rw [if_pos hb] at he
    cases he
    exact h
  · rw [if_neg hb] at he
    obtain ⟨d, -, he⟩ := bind_ok he
    cases he
    exact h

theorem get_eq {m : Mtx R} {i j : Nat} {x : R} (hi : i < m.rows) (hj : j < m.cols) :
    NoChk.mtxGet m i j x = mtxGet m i j x := by
  unfold NoChk.mtxGet mtxGet
  rw [if_neg (by omega)]

theorem get_rc {m : Mtx R} {i j : Nat} {x y : R} {rc : Int} (hi : i < m.rows) (hj : j < m.cols)
    (h : mtxGet m i j x = ok (rc, y)) : rc = 0 := by
  unfold mtxGet at h
  rw [if_neg (by omega)] at h
  obtain ⟨a, -, h⟩ := bind_ok h
  cases h
  rfl

theorem set_eq {m : Mtx R} {i j : Nat} {x : R} (hi : i < m.rows) (hj : j < m.cols) :
    NoChk.mtxSet m i j x = mtxSet m i j x := by
  unfold NoChk.mtxSet mtxSet
  rw [if_neg (by omega)]

theorem copy_eq {a b : Mtx R} (hr : a.rows = b.rows) (hc : a.cols = b.cols) : NoChk.mtxCopy a b = mtxCopy a b := by
  unfold NoChk.mtxCopy mtxCopy
  rw [if_neg (by omega)]

theorem shp_copy {a b a' : Mtx R} {rc : Int} {r c : Nat} (h : Shp a r c) (he : mtxCopy a b = ok (rc, a')) : Shp a' r c := by
  unfold mtxCopy at he
  by_cases hb : a.rows ≠ b.rows ∨ a.cols ≠ b.cols
  · rw [if_pos hb] at he
    cases he
    exact h
  · rw [if_neg hb] at he
    obtain ⟨d, -, he⟩ := bind_ok he
    cases he
    exact h

theorem shp_fromArr {a a' : Mtx R} {l : List R} {rc : Int} {r c : Nat} (h : Shp a r c) (he : mtxFromArr a l = ok (rc, a')) :
    Shp a' r c := by
  unfold mtxFromArr at he
  obtain ⟨d, -, he⟩ := bind_ok he
  cases he
  exact h

/-! ### Loops over the entries of a matrix -/

theorem forEntries_inv {σ : Type} {r c : Nat} {f g : Nat → Nat → σ → Out (Int × σ)} {s : σ} (P : σ → Prop) (h0 : P s)
    (h : ∀ i, i < r → ∀ j, j < c → ∀ t, P t → f i j t = g i j t)
    (hp : ∀ i, i < r → ∀ j, j < c → ∀ t, P t → ∀ rc t', g i j t = ok (rc, t') → P t') :
    forEntries r c f s = forEntries r c g s ∧ ∀ rc t, forEntries r c g s = ok (rc, t) → P t := by
  have inner : ∀ i, i < r → ∀ t, P t →
      forRet c (fun j s => (do
        let (rc, s) ← f i j s
        if rc ≠ 0 then return Ctl.ret (rc, s) else return Ctl.next s : Out (Ctl σ (Int × σ)))) t =
      forRet c (fun j s => (do
        let (rc, s) ← g i j s
        if rc ≠ 0 then return Ctl.ret (rc, s) else return Ctl.next s : Out (Ctl σ (Int × σ)))) t ∧
      ∀ d, forRet c (fun j s => (do
        let (rc, s) ← g i j s
        if rc ≠ 0 then return Ctl.ret (rc, s) else return Ctl.next s : Out (Ctl σ (Int × σ)))) t = ok d → d.Ends P (fun r => P r.2) := by
    intro i hi t ht
    refine forRet_congr_inv (ρ := Int × σ) (fun _ => P) (fun r => P r.2) ht ?_ ?_
    · intro j hj t ht
      exact bind_congr_ok (h i hi j hj t ht) fun a _ => rfl
    · intro j hj t ht d hd
      obtain ⟨⟨rc, t'⟩, hg, hd⟩ := bind_ok hd
      have hP := hp i hi j hj t ht rc t' hg
      by_cases hrc : rc ≠ 0
      · simp only [if_pos hrc] at hd
        cases hd
        exact hP
      · simp only [if_neg hrc] at hd
        cases hd
        exact hP
  have outer := forRet_congr_inv (n := r) (s := s)
    (f := fun i s => forRet c (fun j s => (do
        let (rc, s) ← f i j s
        if rc ≠ 0 then return Ctl.ret (rc, s) else return Ctl.next s : Out (Ctl σ (Int × σ)))) s)
    (g := fun i s => forRet c (fun j s => (do
        let (rc, s) ← g i j s
        if rc ≠ 0 then return Ctl.ret (rc, s) else return Ctl.next s : Out (Ctl σ (Int × σ)))) s)
    (fun _ => P) (fun r => P r.2) h0 (fun i hi t ht => (inner i hi t ht).1) (fun i hi t ht => (inner i hi t ht).2)
  refine ⟨bind_congr_ok outer.1 fun a _ => rfl, ?_⟩
  intro rc t ht
  obtain ⟨d, hd, ht⟩ := bind_ok ht
  have := outer.2 d hd
  cases d with
  | next t' =>
    cases ht
    exact this
  | ret r =>
    cases ht
    exact this

/-- The callback respects the shape of the matrix it fills. -/
def KeepsShape (f : EntryFn R) : Prop :=
  ∀ m i j rc m', f m i j = ok (rc, m') → m'.rows = m.rows ∧ m'.cols = m.cols

theorem init_none {m : Mtx R} : NoChk.mtxInit m none = mtxInit m none ∧
    ∀ rc m', mtxInit m none = ok (rc, m') → Shp m' m.rows m.cols := by
  refine forEntries_inv (fun t => Shp t m.rows m.cols) (shp_self m) ?_ ?_
  · intro i hi j hj t ht
    exact set_eq (by rw [ht.1]; exact hi) (by rw [ht.2]; exact hj)
  · intro i hi j hj t ht rc t' he
    exact shp_set ht he

theorem init_empty {m : Mtx R} : NoChk.mtxInit m (some NoChk.entryFnEmpty) = mtxInit m (some entryFnEmpty) ∧
    ∀ rc m', mtxInit m (some entryFnEmpty) = ok (rc, m') → Shp m' m.rows m.cols := by
  refine forEntries_inv (fun t => Shp t m.rows m.cols) (shp_self m) ?_ ?_
  · intro i hi j hj t ht
    exact set_eq (by rw [ht.1]; exact hi) (by rw [ht.2]; exact hj)
  · intro i hi j hj t ht rc t' he
    exact shp_set ht he

theorem init_identity {m : Mtx R} : NoChk.mtxInit m (some NoChk.entryFnIdentity) = mtxInit m (some entryFnIdentity) ∧
    ∀ rc m', mtxInit m (some entryFnIdentity) = ok (rc, m') → Shp m' m.rows m.cols := by
  refine forEntries_inv (fun t => Shp t m.rows m.cols) (shp_self m) ?_ ?_
  · intro i hi j hj t ht
    exact set_eq (by rw [ht.1]; exact hi) (by rw [ht.2]; exact hj)
  · intro i hi j hj t ht rc t' he
    exact shp_set ht he

/-! ### Rows and columns -/

theorem getRow_eq {m : Mtx R} {i : Nat} {v : List R} (hi : i < m.rows) : NoChk.mtxGetRow m i v = mtxGetRow m i v := by
  refine bind_congr_ok (forRet_congr_inv (fun _ _ => True) (fun _ => True) trivial ?_ ?_).1 fun a _ => rfl
  · intro j hj t _
    exact bind_congr_ok (get_eq hi hj) fun a _ => rfl
  · rintro j hj t _ (c | c) - <;> trivial

theorem getCol_eq {m : Mtx R} {j : Nat} {v : List R} (hj : j < m.cols) : NoChk.mtxGetCol m j v = mtxGetCol m j v := by
  refine bind_congr_ok (forRet_congr_inv (fun _ _ => True) (fun _ => True) trivial ?_ ?_).1 fun a _ => rfl
  · intro i hi t _
    exact bind_congr_ok (get_eq hi hj) fun a _ => rfl
  · rintro i hi t _ (c | c) - <;> trivial

theorem setRow_eq {m : Mtx R} {i : Nat} {v : List R} (hi : i < m.rows) : NoChk.mtxSetRow m i v = mtxSetRow m i v ∧
    ∀ rc m', mtxSetRow m i v = ok (rc, m') → Shp m' m.rows m.cols := by
  have key := forRet_congr_inv (n := m.cols) (s := m)
    (f := fun j (m : Mtx R) => (do
      let x ← rd v j
      let (rc, m) ← NoChk.mtxSet m i j x
      if rc ≠ 0 then return Ctl.ret (rc, m) else return Ctl.next m : Out (Ctl (Mtx R) (Int × Mtx R))))
    (g := fun j (m : Mtx R) => (do
      let x ← rd v j
      let (rc, m) ← mtxSet m i j x
      if rc ≠ 0 then return Ctl.ret (rc, m) else return Ctl.next m : Out (Ctl (Mtx R) (Int × Mtx R))))
    (fun _ t => Shp t m.rows m.cols) (fun r => Shp r.2 m.rows m.cols) (shp_self m) ?_ ?_
  · refine ⟨bind_congr_ok key.1 fun a _ => rfl, ?_⟩
    intro rc m' h
    obtain ⟨c, hc, h⟩ := bind_ok h
    have := key.2 c hc
    cases c with
    | next t => cases h; exact this
    | ret r => cases h; exact this
  · intro j hj t ht
    refine bind_congr_ok rfl fun x _ => ?_
    exact bind_congr_ok (set_eq (by rw [ht.1]; exact hi) (by rw [ht.2]; exact hj)) fun a _ => rfl
  · intro j hj t ht c hc
    obtain ⟨x, -, hc⟩ := bind_ok hc
    obtain ⟨⟨rc, t'⟩, he, hc⟩ := bind_ok hc
    have hs := shp_set ht he
    by_cases hrc : rc ≠ 0
    · simp only [if_pos hrc] at hc
      cases hc
      exact hs
    · simp only [if_neg hrc] at hc
      cases hc
      exact hs

theorem setCol_eq {m : Mtx R} {j : Nat} {v : List R} (hj : j < m.cols) : NoChk.mtxSetCol m j v = mtxSetCol m j v := by
  refine bind_congr_ok (forRet_congr_inv (fun _ t => Shp t m.rows m.cols) (fun _ => True) (shp_self m) ?_ ?_).1 fun a _ => rfl
  · intro i hi t ht
    refine bind_congr_ok rfl fun x _ => ?_
    exact bind_congr_ok (set_eq (by rw [ht.1]; exact hi) (by rw [ht.2]; exact hj)) fun a _ => rfl
  · intro i hi t ht c hc
    obtain ⟨x, -, hc⟩ := bind_ok hc
    obtain ⟨⟨rc, t'⟩, he, hc⟩ := bind_ok hc
    have hs := shp_set ht he
    by_cases hrc : rc ≠ 0
    · simp only [if_pos hrc] at hc
      cases hc
      trivial
    · simp only [if_neg hrc] at hc
      cases hc
      exact hs

theorem shp_setCol {m m' : Mtx R} {j : Nat} {v : List R} {rc : Int} {r c : Nat} (h : Shp m r c)
    (he : mtxSetCol m j v = ok (rc, m')) : Shp m' r c := by
  unfold mtxSetCol at he
  obtain ⟨d, hd, he⟩ := bind_ok he
  have := (forRet_congr_inv (n := m.rows) (s := m)
    (f := fun i (m : Mtx R) => (do
      let x ← rd v i
      let (rc, m) ← mtxSet m i j x
      if rc ≠ 0 then return Ctl.ret (rc, m) else return Ctl.next m : Out (Ctl (Mtx R) (Int × Mtx R))))
    (fun _ t => Shp t r c) (fun t => Shp t.2 r c) h (fun _ _ _ _ => rfl) ?_).2 d hd
  · cases d with
    | next t => cases he; exact this
    | ret t => cases he; exact this
  · intro i hi t ht c hc
    obtain ⟨x, -, hc⟩ := bind_ok hc
    obtain ⟨⟨rc, t'⟩, he, hc⟩ := bind_ok hc
    have hs := shp_set ht he
    by_cases hrc : rc ≠ 0
    · simp only [if_pos hrc] at hc
      cases hc
      exact hs
    · simp only [if_neg hrc] at hc
      cases hc
      exact hs

end Verif.NoChkL
