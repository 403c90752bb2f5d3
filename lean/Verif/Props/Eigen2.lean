import Verif.Lemmas.EigVec2
import Verif.Props.Safe6

/-!
# Eigenvectors (C119)
-/

set_option linter.unusedSectionVars false

namespace Verif

open Out Matrix

variable {n : ℕ}

theorem contains_fin (l : List ℝ) (k : ℕ) (a : ℝ) (hk : l.length = k) :
    ∃ c : ℕ, vecContains (⟨k, l.map XR.fin⟩ : Vec XR) (XR.fin a) (lit 1e-6) = ok c ∧ (c = 0 ↔ ∀ x ∈ l, 1 / 1000000 ≤ |x - a|) := by
  subst hk
  rw [vec_contains_correct _ _ _ (by simp [Vec.WF])]
  refine ⟨_, rfl, ?_⟩
  rw [List.countP_eq_zero, Vec.vals]
  simp only [List.take_of_length_le (show (l.map XR.fin).length ≤ l.length by simp)]
  have key : ∀ x : ℝ, (CReal.lt (XR.fin x - XR.fin a) (lit 1e-6) && CReal.lt (-(XR.fin x - XR.fin a)) (lit 1e-6)) = true ↔
      |x - a| < 1 / 1000000 := by
    intro x
    rw [lit_micro, XR.fin_sub, XR.fin_neg, Bool.and_eq_true, XR.fin_lt, XR.fin_lt, abs_lt]
    norm_num
    constructor
    · rintro ⟨h1, h2⟩
      constructor <;> linarith
    · rintro ⟨h1, h2⟩
      constructor <;> linarith
  constructor
  · intro h x hx
    by_contra hc
    exact h (XR.fin x) (List.mem_map.2 ⟨x, hx, rfl⟩) ((key x).2 (not_le.1 hc))
  · rintro h _ hy
    obtain ⟨x, hx, rfl⟩ := List.mem_map.1 hy
    rw [key]
    exact not_lt.2 (h x hx)

open Classical in
/-- The values of a list that are not small, without those that are within `1e-6` of an earlier one. -/
noncomputable def firsts (l : List ℝ) : List ℝ :=
  l.foldl (fun L a => if 1 / 1000000 ≤ |a| ∧ ∀ x ∈ L, 1 / 1000000 ≤ |x - a| then L ++ [a] else L) []

open Classical in
theorem firsts_take_succ (k : Fin n → ℝ) (i : Fin n) : firsts ((List.ofFn k).take (i.val + 1)) =
    if 1 / 1000000 ≤ |k i| ∧ ∀ x ∈ firsts ((List.ofFn k).take i.val), 1 / 1000000 ≤ |x - k i| then
      firsts ((List.ofFn k).take i.val) ++ [k i] else firsts ((List.ofFn k).take i.val) := by
  rw [List.take_succ_eq_append_getElem (by simp), firsts, List.foldl_append]
  simp [firsts]

open Classical in
/-- The list of different eigenvalues: a list without repetitions of the values of `k` that are not small, followed by 0 if there is a small
one; every value of `k` is within `1e-6` of an entry of the list. -/
theorem distinctEigen_spec (k : Fin n → ℝ) : ∃ L : List ℝ, L.length ≤ n ∧
    distinctEigen n (vec k []) (vec (0 : Fin n → ℝ) []) =
      ok (⟨n, (L ++ List.replicate (n - L.length) 0).map XR.fin⟩, L.length) ∧
    L.Nodup ∧ (∀ lam ∈ L, (1 / 1000000 ≤ |lam| ∧ ∃ i, k i = lam) ∨ (lam = 0 ∧ ∃ i, |k i| < 1 / 1000000)) ∧
    (∀ i, ∃ lam ∈ L, |k i - lam| < 1 / 1000000) ∧
    L = firsts (List.ofFn k) ++ if ∃ i, |k i| < 1 / 1000000 then [0] else [] := by
  unfold distinctEigen
  have hloop := forN_sat (n := n) (f := fun q (s : Vec XR × Nat) => do
    let (o, n) := s
    let a ← rd (vec k []).data q
    if CReal.ge a (lit 1e-6) || CReal.le a (-lit 1e-6) then do
      let a ← rd (vec k []).data q
      let c ← vecContains o a (lit 1e-6)
      if c = 0 then do
        let od ← wr o.data n a
        return (({ o with data := od } : Vec XR), n + 1)
      else return (o, n)
    else return (o, n)) (s := (vec (0 : Fin n → ℝ) [], 0))
    (fun q st => ∃ L : List ℝ, L.length ≤ q ∧ ((∃ i : Fin n, i.val < q ∧ |k i| < 1 / 1000000) → L.length + 1 ≤ q) ∧
      st = (⟨n, (L ++ List.replicate (n - L.length) 0).map XR.fin⟩, L.length) ∧ L.Nodup ∧
      (∀ lam ∈ L, 1 / 1000000 ≤ |lam| ∧ ∃ i, k i = lam) ∧
      (∀ i : Fin n, i.val < q → 1 / 1000000 ≤ |k i| → ∃ lam ∈ L, |k i - lam| < 1 / 1000000) ∧
      L = firsts ((List.ofFn k).take q))
    ⟨[], by simp, by rintro ⟨i, hi, _⟩; omega, by
      simp only [List.length_nil, Nat.sub_zero, List.nil_append, Prod.mk.injEq, and_true]
      unfold vec arr
      rw [List.append_nil]
      congr 1
      apply List.ext_getElem <;> simp, by simp, by simp, by rintro i hi; omega, by simp [firsts]⟩ (by
      rintro q hq _ ⟨L, h1, h2, rfl, h3, h4, h5, h6⟩
      dsimp only
      obtain ⟨i, rfl⟩ : ∃ i : Fin n, i.val = q := ⟨⟨q, hq⟩, rfl⟩
      have hrd : rd (vec k []).data i.val = ok (XR.fin (k i)) := by
        rw [vec_data, rd_lt (by simp [arr])]
        simp [arr]
      rw [hrd]
      simp only [ok_bind]
      have hcond : (CReal.ge (XR.fin (k i)) (lit 1e-6) || CReal.le (XR.fin (k i)) (-lit 1e-6)) = true ↔ 1 / 1000000 ≤ |k i| :=
        isNonzeroE_fin (k i)
      have hlast : ∀ j : Fin n, j.val < i.val + 1 → j.val < i.val ∨ j = i := by
        intro j hj
        rcases Nat.lt_succ_iff_lt_or_eq.1 hj with h | h
        · exact Or.inl h
        · exact Or.inr (Fin.ext h)
      by_cases hbig : 1 / 1000000 ≤ |k i|
      · rw [if_pos (hcond.2 hbig)]
        obtain ⟨c, hc, hc0⟩ := contains_fin (L ++ List.replicate (n - L.length) 0) n (k i) (by simp; omega)
        rw [hc]
        simp only [ok_bind]
        by_cases hc1 : c = 0
        · rw [if_pos hc1]
          have hfar := hc0.1 hc1
          have hwr : wr ((L ++ List.replicate (n - L.length) 0).map XR.fin) L.length (XR.fin (k i)) =
              ok (((L ++ [k i]) ++ List.replicate (n - (L ++ [k i]).length) 0).map XR.fin) := by
            rw [wr_lt _ (by simp; omega)]
            congr 1
            obtain ⟨m, hm⟩ : ∃ m, n - L.length = m + 1 := ⟨n - L.length - 1, by omega⟩
            have hm' : n - (L ++ [k i]).length = m := by
              rw [List.length_append, List.length_singleton]
              omega
            rw [hm, hm', List.replicate_succ, List.map_append, List.map_append, List.map_append, List.map_cons,
              List.set_append_right _ _ (by simp), List.length_map, Nat.sub_self]
            simp
          rw [hwr]
          simp only [ok_bind, pure_eq, sat_ok]
          refine ⟨L ++ [k i], by simp; omega, ?_, ?_, ?_, ?_, ?_, ?_⟩
          · rintro ⟨j, hj, hj2⟩
            have := h2 ⟨j, (hlast j hj).resolve_right (by rintro rfl; linarith), hj2⟩
            simp
            omega
          · simp
          · rw [List.nodup_append]
            refine ⟨h3, by simp, ?_⟩
            intro a ha b hb hab
            rw [List.mem_singleton.1 hb] at hab
            have := hfar a (List.mem_append_left _ ha)
            rw [hab, sub_self, abs_zero] at this
            norm_num at this
          · intro lam hlam
            rcases List.mem_append.1 hlam with h | h
            · exact h4 lam h
            · rw [List.mem_singleton.1 h]
              exact ⟨hbig, i, rfl⟩
          · intro j hj hjb
            rcases hlast j hj with h | rfl
            · obtain ⟨lam, hl, hl2⟩ := h5 j h hjb
              exact ⟨lam, List.mem_append_left _ hl, hl2⟩
            · exact ⟨k j, by simp, by rw [sub_self, abs_zero]; norm_num⟩
          · rw [firsts_take_succ, ← h6, if_pos ⟨hbig, fun x hx => hfar x (List.mem_append_left _ hx)⟩]
        · rw [if_neg hc1]
          simp only [pure_eq, sat_ok]
          refine ⟨L, by omega, ?_, rfl, h3, h4, ?_, ?_⟩
          · rintro ⟨j, hj, hj2⟩
            have := h2 ⟨j, (hlast j hj).resolve_right (by rintro rfl; linarith), hj2⟩
            omega
          · intro j hj hjb
            rcases hlast j hj with h | rfl
            · exact h5 j h hjb
            · rw [hc0] at hc1
              push Not at hc1
              obtain ⟨x, hx, hx2⟩ := hc1
              rcases List.mem_append.1 hx with h | h
              · exact ⟨x, h, by rw [abs_sub_comm]; exact hx2⟩
              · rw [List.eq_of_mem_replicate h, zero_sub, abs_neg] at hx2
                linarith
          · rw [firsts_take_succ, ← h6, if_neg]
            rintro ⟨_, h⟩
            refine hc1 (hc0.2 fun x hx => ?_)
            rcases List.mem_append.1 hx with hx | hx
            · exact h x hx
            · rw [List.eq_of_mem_replicate hx, zero_sub, abs_neg]
              exact hbig
      · rw [if_neg (by rw [hcond]; exact hbig)]
        simp only [pure_eq, sat_ok]
        refine ⟨L, by omega, fun _ => by omega, rfl, h3, h4, ?_, by
          rw [firsts_take_succ, ← h6, if_neg (fun h => hbig h.1)]⟩
        intro j hj hjb
        rcases hlast j hj with h | rfl
        · exact h5 j h hjb
        · exact absurd hjb hbig)
  obtain ⟨_, hst, L, h1, h2, rfl, h3, h4, h5, h6⟩ := hloop
  rw [List.take_of_length_le (by simp)] at h6
  rw [hst]
  simp only [ok_bind]
  have hk : (vec k [] : Vec XR) = ⟨n, (List.ofFn k).map XR.fin⟩ := by
    unfold vec arr
    rw [List.append_nil, List.map_ofFn]
    rfl
  obtain ⟨c, hc, hc0⟩ := contains_fin (List.ofFn k) n 0 (by simp)
  rw [hk, show (lit 0 : XR) = XR.fin 0 by rw [XR.lit_eq, Rat.cast_zero], hc]
  simp only [ok_bind, pure_eq]
  by_cases hz : ∃ i, |k i| < 1 / 1000000
  · rw [if_pos hz, ← h6]
    obtain ⟨i0, hi0⟩ := hz
    have hlen := h2 ⟨i0, i0.2, hi0⟩
    have hcpos : c > 0 := by
      rw [gt_iff_lt, Nat.pos_iff_ne_zero, Ne, hc0]
      intro h
      have := h (k i0) ((List.mem_ofFn' _ _).2 ⟨i0, rfl⟩)
      rw [sub_zero] at this
      linarith
    rw [if_pos hcpos]
    refine ⟨L ++ [0], by simp; omega, ?_, ?_, ?_, ?_, rfl⟩
    · congr 3
      · obtain ⟨m, hm⟩ : ∃ m, n - L.length = m + 1 := ⟨n - L.length - 1, by omega⟩
        have hm' : n - (L ++ [(0 : ℝ)]).length = m := by
          rw [List.length_append, List.length_singleton]
          omega
        rw [hm, hm', List.replicate_succ, List.append_assoc]
        rfl
      · simp
    · rw [List.nodup_append]
      refine ⟨h3, by simp, ?_⟩
      intro a ha b hb hab
      rw [List.mem_singleton.1 hb] at hab
      have := (h4 a ha).1
      rw [hab, abs_zero] at this
      norm_num at this
    · intro lam hlam
      rcases List.mem_append.1 hlam with h | h
      · exact Or.inl (h4 lam h)
      · exact Or.inr ⟨List.mem_singleton.1 h, i0, hi0⟩
    · intro i
      by_cases hb : 1 / 1000000 ≤ |k i|
      · obtain ⟨lam, hl, hl2⟩ := h5 i i.2 hb
        exact ⟨lam, List.mem_append_left _ hl, hl2⟩
      · exact ⟨0, by simp, by rw [sub_zero]; exact not_le.1 hb⟩
  · have hcz : ¬c > 0 := by
      rw [gt_iff_lt, Nat.pos_iff_ne_zero, Ne, not_not, hc0]
      intro x hx
      obtain ⟨i, rfl⟩ := (List.mem_ofFn' _ _).1 hx
      rw [sub_zero]
      push Not at hz
      exact hz i
    rw [if_neg hcz]
    rw [if_neg hz, ← h6, List.append_nil]
    refine ⟨L, h1, rfl, h3, fun lam hlam => Or.inl (h4 lam hlam), fun i => ?_, rfl⟩
    push Not at hz
    exact h5 i i.2 (hz i)

open Classical in
/-- The kept values appear in the order of their first occurrence. -/
theorem firsts_order (k : Fin n → ℝ) (la lb : ℝ) (h : [la, lb].Sublist (firsts (List.ofFn k))) :
    ∃ i, k i = la ∧ ∀ i', k i' = lb → i < i' := by
  have key : ∀ q, q ≤ n → (∀ x ∈ firsts ((List.ofFn k).take q), ∃ i : Fin n, i.val < q ∧ k i = x) ∧
      (∀ i : Fin n, i.val < q → 1 / 1000000 ≤ |k i| → ∃ x ∈ firsts ((List.ofFn k).take q), |x - k i| < 1 / 1000000) ∧
      ∀ la lb, [la, lb].Sublist (firsts ((List.ofFn k).take q)) → ∃ i : Fin n, i.val < q ∧ k i = la ∧ ∀ i', k i' = lb → i < i' := by
    intro q
    induction q with
    | zero => exact fun _ => ⟨by simp [firsts], by rintro i hi; omega, by simp [firsts]⟩
    | succ q ih =>
      intro hq
      obtain ⟨ih1, ih2, ih3⟩ := ih (by omega)
      have hstep := firsts_take_succ k ⟨q, hq⟩
      dsimp only at hstep
      have hlast : ∀ j : Fin n, j.val < q + 1 → j.val < q ∨ j = ⟨q, hq⟩ := by
        intro j hj
        rcases Nat.lt_succ_iff_lt_or_eq.1 hj with h | h
        · exact Or.inl h
        · exact Or.inr (Fin.ext h)
      rw [hstep]
      by_cases hc : 1 / 1000000 ≤ |k ⟨q, hq⟩| ∧ ∀ x ∈ firsts ((List.ofFn k).take q), 1 / 1000000 ≤ |x - k ⟨q, hq⟩|
      · rw [if_pos hc]
        refine ⟨?_, ?_, ?_⟩
        · intro x hx
          rcases List.mem_append.1 hx with hx | hx
          · obtain ⟨i, hi, hi2⟩ := ih1 x hx
            exact ⟨i, by omega, hi2⟩
          · exact ⟨⟨q, hq⟩, by simp, (List.mem_singleton.1 hx).symm⟩
        · intro i hi hb
          rcases hlast i hi with h | rfl
          · obtain ⟨x, hx, hx2⟩ := ih2 i h hb
            exact ⟨x, List.mem_append_left _ hx, hx2⟩
          · exact ⟨k ⟨q, hq⟩, by simp, by rw [sub_self, abs_zero]; norm_num⟩
        · intro la lb h
          obtain ⟨l1, l2, hl, hs1, hs2⟩ := List.sublist_append_iff.1 h
          have hl2 : l2 = [] ∨ l2 = [k ⟨q, hq⟩] := by
            exact List.sublist_singleton.1 hs2
          rcases hl2 with rfl | rfl
          · rw [List.append_nil] at hl
            subst hl
            obtain ⟨i, hi, hi2⟩ := ih3 la lb hs1
            exact ⟨i, by omega, hi2⟩
          · have : l1 = [la] ∧ lb = k ⟨q, hq⟩ := by
              obtain ⟨e1, e2⟩ := List.append_inj' (s₁ := [la]) (t₁ := [lb]) hl rfl
              exact ⟨e1.symm, List.singleton_inj.1 e2⟩
            obtain ⟨rfl, rfl⟩ := this
            obtain ⟨i, hi, hi2⟩ := ih1 la (List.singleton_sublist.1 hs1)
            refine ⟨i, by omega, hi2, fun i' hi' => ?_⟩
            by_contra hcon
            have hlt : i'.val < q := by
              have := Fin.le_def.1 (not_lt.1 hcon)
              omega
            obtain ⟨x, hx, hx2⟩ := ih2 i' hlt (by rw [hi']; exact hc.1)
            rw [hi'] at hx2
            exact absurd (hc.2 x hx) (not_le.2 hx2)
      · rw [if_neg hc]
        refine ⟨?_, ?_, ?_⟩
        · intro x hx
          obtain ⟨i, hi, hi2⟩ := ih1 x hx
          exact ⟨i, by omega, hi2⟩
        · intro i hi hb
          rcases hlast i hi with h | rfl
          · exact ih2 i h hb
          · by_contra hcon
            push Not at hcon
            exact hc ⟨hb, hcon⟩
        · intro la lb h
          obtain ⟨i, hi, hi2⟩ := ih3 la lb h
          exact ⟨i, by omega, hi2⟩
  obtain ⟨i, -, hi⟩ := (key n le_rfl).2.2 la lb (by rwa [List.take_of_length_le (by simp)])
  exact ⟨i, hi⟩

open Classical in
/-- The order of the kept values: a zero comes last, the others in the order of their first occurrence. -/
theorem kept_order (k : Fin n → ℝ) (L : List ℝ)
    (hL : L = firsts (List.ofFn k) ++ if ∃ i, |k i| < 1 / 1000000 then [0] else []) (la lb : ℝ) (h : [la, lb].Sublist L) :
    la ≠ 0 ∧ (lb = 0 ∨ ∃ i, k i = la ∧ ∀ i', k i' = lb → i < i') := by
  have hz : ∀ x ∈ firsts (List.ofFn k), x ≠ 0 := by
    intro x hx h0
    subst h0
    unfold firsts at hx
    have : ∀ (l M : List ℝ), (0 : ℝ) ∉ M → (0 : ℝ) ∉ l.foldl (fun L a => if 1 / 1000000 ≤ |a| ∧ ∀ x ∈ L, 1 / 1000000 ≤ |x - a| then
        L ++ [a] else L) M := by
      intro l
      induction l with
      | nil => exact fun M h => h
      | cons a l ih =>
        intro M hM
        rw [List.foldl_cons]
        apply ih
        split_ifs with hc
        · rw [List.mem_append, not_or]
          refine ⟨hM, fun h => ?_⟩
          rw [← List.mem_singleton.1 h, abs_zero] at hc
          norm_num at hc
        · exact hM
    exact this _ _ (by simp) hx
  obtain ⟨l1, l2, hl, hs1, hs2⟩ := List.sublist_append_iff.1 (hL ▸ h)
  have hl2 : l2 = [] ∨ l2 = [0] := by
    split_ifs at hs2
    · exact List.sublist_singleton.1 hs2
    · exact Or.inl (List.sublist_nil.1 hs2)
  rcases hl2 with rfl | rfl
  · rw [List.append_nil] at hl
    subst hl
    exact ⟨hz _ (hs1.subset (by simp)), Or.inr (firsts_order k la lb hs1)⟩
  · have : l1 = [la] ∧ lb = 0 := by
      obtain ⟨e1, e2⟩ := List.append_inj' (s₁ := [la]) (t₁ := [lb]) hl rfl
      exact ⟨e1.symm, List.singleton_inj.1 e2⟩
    obtain ⟨rfl, rfl⟩ := this
    exact ⟨hz _ (List.singleton_sublist.1 hs1), Or.inl rfl⟩

/-- The function up to the point where all eigenvectors are collected, and the copy to the output. -/
theorem eigenvectors_run (fuel : ℕ) (junk : ℕ → XR) (A : Matrix (Fin n) (Fin n) ℝ) (B : Matrix (Fin n) (Fin n) XR) (t u : List XR)
    (iter : ℕ) (orth : Bool) (hn : 0 < n) (rc : Int) (k : Fin n → ℝ)
    (heig : mtxEigenvalues fuel junk (mat A t) (Vec.uninit junk n) iter = ok (rc, vec k []))
    (hA : ∀ i, NoTiny (A - k i • 1)) (h0 : (∃ i, |k i| < 1 / 1000000) → NoTiny A) :
    ∃ (L : List ℝ) (T : List (Fin n → ℝ)), EigFamily A orth L T ∧ T.length ≤ n ∧
      (∀ lam ∈ L, (1 / 1000000 ≤ |lam| ∧ ∃ i, k i = lam) ∨ (lam = 0 ∧ ∃ i, |k i| < 1 / 1000000)) ∧
      (∀ i, ∃ lam ∈ L, |k i - lam| < 1 / 1000000) ∧
      (∀ la lb, [la, lb].Sublist L → la ≠ 0 ∧ (lb = 0 ∨ ∃ i, k i = la ∧ ∀ i', k i' = lb → i < i')) ∧
      mtxEigenvectors fuel junk (mat A t) (mtxOf B u) iter orth = ok (if T.length = n then 0 else -EEIGENSIZE,
        mat (Matrix.of fun (i : Fin n) (j : Fin T.length) => T[j] i) ((mtxOf B u).data.drop (n * T.length))) := by
  obtain ⟨L, hLn, hL, hnd, hLk, hkL, hLe⟩ := distinctEigen_spec k
  obtain ⟨U, hU⟩ := uninit_eq junk n n
  unfold mtxEigenvectors
  rw [if_neg (by simp; omega)]
  simp only [mat_rows, mat_cols]
  rw [hU, mtx_init_null]
  simp only [ok_bind]
  rw [vecUninit_eq, vecInit_vec]
  simp only [ok_bind]
  rw [← vecUninit_eq, heig]
  simp only [ok_bind]
  rw [hL]
  simp only [ok_bind]
  set Z : Matrix (Fin n) (Fin n) XR := Matrix.of fun (_ : Fin n) (_ : Fin n) => lit 0 with hZ
  have hbig : Big n (mtxOf U []) := ⟨rfl, by
    rw [mtxOf_eq, mkM_data]
    simp [mkD_length]⟩
  have hloop := forN_sat (n := L.length) (f := fun g s => do
      let og ← rd ((L ++ List.replicate (n - L.length) 0).map XR.fin) g
      eigenvectorsOf junk (mat A t) orth og s)
    (s := (mtxOf U [], mtxOf U [], mtxOf U [], mtxOf U [], Vec.uninit junk n, mtxOf Z [], 0))
    (fun g s => (∃ N : Matrix (Fin n) (Fin n) XR, s.1 = mtxOf N []) ∧ (∃ N : Matrix (Fin n) (Fin n) XR, s.2.1 = mtxOf N []) ∧
      Big n s.2.2.1 ∧ Big n s.2.2.2.1 ∧ (∃ y : Fin n → XR, s.2.2.2.2.1 = vecOf y []) ∧
      ∃ ls, List.Forall₂ (EigBlock A orth) (L.take g) ls ∧ s.2.2.2.2.2.1 = mtxOf (setCols Z 0 ls.flatten) [] ∧
        s.2.2.2.2.2.2 = ls.flatten.length)
    ⟨⟨U, rfl⟩, ⟨U, rfl⟩, hbig, hbig, ⟨_, vecUninit_eq junk n⟩, [], by simp, by simp [setCols_nil], by simp⟩ (by
      rintro g hg ⟨mid, mi, evec, evec2, f, mev2, b⟩ ⟨⟨N1, h1⟩, ⟨N2, h2⟩, h3, h4, ⟨y, h5⟩, ls, h6, h7, h8⟩
      dsimp only at h1 h2 h3 h4 h5 h7 h8 ⊢
      subst h1 h2 h5 h7 h8
      have hrd : rd ((L ++ List.replicate (n - L.length) 0).map XR.fin) g = ok (XR.fin L[g]) := by
        rw [rd_lt (by simp; omega), List.getElem_map, List.getElem_append_left hg]
      rw [hrd, ok_bind]
      have hNT : NoTiny (A - L[g] • 1) := by
        rcases hLk _ (List.getElem_mem hg) with ⟨_, i, hi⟩ | ⟨hz, hex⟩
        · rw [← hi]
          exact hA i
        · rw [hz, zero_smul, sub_zero]
          exact h0 hex
      refine (eigenvectorsOf_spec junk A t orth L[g] N1 N2 (setCols Z 0 ls.flatten) evec evec2 y ls.flatten.length hn h3 h4 hNT).mono ?_
      rintro ⟨mid, mi, evec, evec2, f, mev2, b⟩ ⟨i1, i2, i3, i4, i5, l, i6, i7, i8⟩
      refine ⟨i1, i2, i3, i4, i5, ls ++ [l], ?_, ?_, ?_⟩
      · rw [List.take_succ_eq_append_getElem hg]
        exact List.rel_append h6 (.cons i6 .nil)
      · dsimp only at i7 ⊢
        rw [i7, List.flatten_append, ← setCols_append, Nat.zero_add]
        simp
      · dsimp only at i8 ⊢
        rw [i8, List.flatten_append]
        simp)
  obtain ⟨⟨mid, mi, evec, evec2, f, mev2, b⟩, hst, -, -, -, -, ⟨y, h5⟩, ls, h6, h7, h8⟩ := hloop
  dsimp only at h5 h7 h8
  subst h5 h7 h8
  rw [List.take_length] at h6
  have hfam := blocks_indep h6 hnd
  have hTn : ls.flatten.length ≤ n := by
    have := hfam.indep.fintype_card_le_finrank
    simpa using this
  refine ⟨L, ls.flatten, hfam, hTn, hLk, hkL, kept_order k L hLe, ?_⟩
  refine (congrArg (fun x => x >>= _) hst).trans ?_
  rw [ok_bind]
  simp only
  generalize ls.flatten = T at hfam hTn
  obtain ⟨D, hD⟩ := Big.reshape (n := n) (m := mtxOf B u) ⟨rfl, by
    rw [mtxOf_eq, mkM_data]
    simp [mkD_length]⟩ T.length hTn
  rw [hD]
  have hcopy := forN_sat (n := T.length) (f := fun s (st : List XR × Mtx XR) => do
      let (_, fd) ← mtxGetCol (mtxOf (setCols Z 0 T) []) s st.1
      let (_, mev) ← mtxSetCol st.2 s fd
      return (fd, mev)) (s := ((vecOf y []).data, mtxOf D ((mtxOf B u).data.drop (n * T.length))))
    (fun m st => (∃ z : Fin n → XR, st.1 = arrOf z []) ∧
      st.2 = mtxOf (setCols D 0 (T.take m)) ((mtxOf B u).data.drop (n * T.length)))
    ⟨⟨y, rfl⟩, by simp [setCols_nil]⟩ (by
      rintro m hm ⟨fd, mev⟩ ⟨⟨z, h1⟩, h2⟩
      dsimp only at h1 h2 ⊢
      subst h1 h2
      have hcol := mtx_get_col_correct (setCols Z 0 T) [] [] z ⟨m, by omega⟩
      have hval : (fun i => setCols Z 0 T i ⟨m, by omega⟩) = fun i => XR.fin (T[m] i) := by
        funext i
        simp [setCols, hm]
      rw [hval] at hcol
      rw [hcol]
      simp only [ok_bind]
      obtain ⟨rc', hrc⟩ := mtxSetCol_any (setCols D 0 (T.take m)) ((mtxOf B u).data.drop (n * T.length)) [] m T[m] hn
      rw [show arrOf (fun i => XR.fin (T[m] i)) [] = arr T[m] [] from rfl, hrc]
      simp only [ok_bind, pure_eq, sat_ok]
      refine ⟨⟨fun i => XR.fin (T[m] i), rfl⟩, ?_⟩
      rw [List.take_succ_eq_append_getElem hm, ← setCols_append]
      simp [Nat.min_eq_left (le_of_lt hm)])
  obtain ⟨⟨fd, mev⟩, hc, -, h2⟩ := hcopy
  dsimp only at h2
  subst h2
  rw [hc]
  simp only [ok_bind, pure_eq]
  rw [List.take_length, setCols_full D T rfl]
  by_cases hb : T.length = n
  · refine (if_neg (not_not.2 hb)).trans ?_
    rw [if_pos hb]
    rfl
  · refine (if_pos hb).trans ?_
    rw [if_neg hb]
    rfl

/-- C119. Whenever the eigenvalue function has returned the real values `k`, and the eliminations of the matrices `A - k i` (and of `A`, if
one of the values is below `1e-6`) meet no tiny number, `zsl_mtx_eigenvectors` stores `b ≤ n` columns. Every column is an eigenvector, the
columns are independent, every eigenvector of an eigenvalue in the list is a combination of the stored columns for this eigenvalue, and with
`orthonormal` set the columns of equal eigenvalue are orthonormal. The columns are grouped by eigenvalue, in the order in which the values
first occur in `k`, with those of eigenvalue zero last. The return code is 0 if there are `n` columns and `-EEIGENSIZE`
otherwise; nothing behind the columns changes. -/
theorem mtx_eigenvectors_correct (fuel : ℕ) (junk : ℕ → XR) (A : Matrix (Fin n) (Fin n) ℝ) (B : Matrix (Fin n) (Fin n) XR) (t u : List XR)
    (iter : ℕ) (orth : Bool) (hn : 0 < n) (rc : Int) (k : Fin n → ℝ)
    (heig : mtxEigenvalues fuel junk (mat A t) (Vec.uninit junk n) iter = ok (rc, vec k []))
    (hA : ∀ i, NoTiny (A - k i • 1)) (h0 : (∃ i, |k i| < 1 / 1000000) → NoTiny A) :
    ∃ (b : ℕ) (lam : Fin b → ℝ) (V : Matrix (Fin n) (Fin b) ℝ), b ≤ n ∧
      mtxEigenvectors fuel junk (mat A t) (mtxOf B u) iter orth = ok (if b = n then 0 else -EEIGENSIZE,
        mat V ((mtxOf B u).data.drop (n * b))) ∧
      (∀ j, A *ᵥ V.col j = lam j • V.col j) ∧ LinearIndependent ℝ V.col ∧
      (∀ j, ∃ i, |k i - lam j| < 1 / 1000000) ∧
      (∀ i, (k i = 0 ∨ 1 / 1000000 ≤ |k i|) → (∀ j, k j = k i ∨ 1 / 1000000 ≤ |k j - k i|) → ∀ x, A *ᵥ x = k i • x →
        x ∈ Submodule.span ℝ {v | ∃ j, v = V.col j ∧ lam j = k i}) ∧
      (orth = true → ∀ i j, lam i = lam j → V.col i ⬝ᵥ V.col j = if i = j then 1 else 0) ∧
      (∀ j j', j < j' → lam j ≠ lam j' → lam j ≠ 0 ∧ (lam j' = 0 ∨ ∃ i, k i = lam j ∧ ∀ i', k i' = lam j' → i < i')) := by
  obtain ⟨L, T, hfam, hTn, hLk, hkL, hord, hres⟩ := eigenvectors_run fuel junk A B t u iter orth hn rc k heig hA h0
  have hex : ∀ j : Fin T.length, ∃ lam ∈ L, A *ᵥ T[j] = lam • T[j] := fun j => hfam.eig _ (List.getElem_mem j.2)
  choose lam hlam1 hlam2 using hex
  have hne : ∀ j : Fin T.length, T[j] ≠ 0 := fun j => hfam.indep.ne_zero j
  refine ⟨T.length, lam, _, hTn, hres, hlam2, hfam.indep, ?_, ?_, ?_, ?_⟩
  · intro j
    rcases hLk _ (hlam1 j) with ⟨_, i, hi⟩ | ⟨hz, i, hi⟩
    · exact ⟨i, by rw [hi, sub_self, abs_zero]; norm_num⟩
    · exact ⟨i, by rw [hz, sub_zero]; exact hi⟩
  · intro i hz hsep x hx
    have hmem : k i ∈ L := by
      obtain ⟨l, hl, hl2⟩ := hkL i
      rcases hLk l hl with ⟨hb, i', hi'⟩ | ⟨hz', _⟩
      · rcases hsep i' with h | h
        · rw [← h, hi']
          exact hl
        · rw [hi', abs_sub_comm] at h
          exact absurd hl2 (not_lt.2 h)
      · rw [hz', sub_zero] at hl2
        rw [hz.resolve_right (not_le.2 hl2), ← hz']
        exact hl
    refine Submodule.span_mono ?_ (hfam.span (k i) hmem x hx)
    rintro v ⟨hv, hv2⟩
    obtain ⟨j, hj, rfl⟩ := List.mem_iff_getElem.1 hv
    refine ⟨⟨j, hj⟩, rfl, ?_⟩
    have h1 := hlam2 ⟨j, hj⟩
    rw [Fin.getElem_fin, hv2] at h1
    exact (smul_left_injective ℝ (hne ⟨j, hj⟩) h1).symm
  · intro ho i j hij
    exact hfam.orth ho i j (lam i) (hlam2 i) (by rw [hij]; exact hlam2 j)
  · intro j j' hj hne'
    exact hord _ _ ((hfam.order j.val j'.val j.2 j'.2 _ _ hj (hlam2 j) (hlam2 j')).resolve_left hne')

end Verif
