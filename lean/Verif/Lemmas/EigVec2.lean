import Verif.Lemmas.EigVec
import Verif.Props.Eigen1
import Mathlib.LinearAlgebra.Eigenspace.Basic
import Mathlib.LinearAlgebra.Matrix.Dual
import Mathlib.LinearAlgebra.Dimension.Finite

/-! # The eigenvectors of one eigenvalue -/

set_option linter.unusedSectionVars false

namespace Verif

open Out Matrix

variable {n r c : ℕ}

/-- A basis of the solutions of `A x = lam x`, orthonormal if `orth`. -/
structure EigBlock (A : Matrix (Fin n) (Fin n) ℝ) (orth : Bool) (lam : ℝ) (l : List (Fin n → ℝ)) : Prop where
  basis : KerBasis (A - lam • 1) l
  orth : orth = true → ∀ a b : Fin l.length, l[a] ⬝ᵥ l[b] = if a = b then 1 else 0

/-- Orthonormal lists are independent. -/
theorem indep_of_orth (l : List (Fin n → ℝ)) (h : ∀ a b : Fin l.length, l[a] ⬝ᵥ l[b] = if a = b then 1 else 0) :
    LinearIndependent ℝ l.get := by
  rw [Fintype.linearIndependent_iff]
  intro g hg i
  have h1 : (∑ j, g j • l.get j) ⬝ᵥ l.get i = 0 := by rw [hg, zero_dotProduct]
  rw [sum_dotProduct, Finset.sum_eq_single i] at h1
  · rw [smul_dotProduct] at h1
    have := h i i
    rw [if_pos rfl] at this
    simp only [List.get_eq_getElem] at h1
    rw [show (l[i.val] ⬝ᵥ l[i.val] : ℝ) = 1 from this] at h1
    simpa using h1
  · intro b _ hb
    rw [smul_dotProduct]
    have := h b i
    rw [if_neg hb] at this
    simp only [List.get_eq_getElem]
    rw [show (l[b.val] ⬝ᵥ l[i.val] : ℝ) = 0 from this, smul_zero]
  · simp

/-- Gram-Schmidt and normalisation turn a basis of the solutions into an orthonormal basis. -/
theorem orth_block {M : Matrix (Fin (r + 1)) (Fin (r + 1)) ℝ} {l : List (Fin (r + 1) → ℝ)} (h : KerBasis M l) (junk : ℕ → XR)
    (D D2 : Matrix (Fin (r + 1)) (Fin l.length) XR) (t u : List XR) :
    ∃ (G V : Matrix (Fin (r + 1)) (Fin l.length) ℝ),
      mtxGramSchmidt junk (mtxOf (setCols D 0 l) t) (mtxOf D2 u) = ok (0, mat G u) ∧
      mtxColsNorm junk (mat G u) (mtxOf (setCols D 0 l) t) = ok (0, mat V t) ∧
      KerBasis M (List.ofFn fun j i => V i j) ∧
      ∀ a b : Fin l.length, (fun i => V i a) ⬝ᵥ (fun i => V i b) = if a = b then 1 else 0 := by
  set W : Matrix (Fin (r + 1)) (Fin l.length) ℝ := Matrix.of fun i j => l[j.val] i with hW
  have hWc : ∀ j : Fin l.length, (fun i => W i j) = l[j.val] := fun j => rfl
  have hind : LinearIndependent ℝ fun j i => W i j := h.indep
  have hgs := mtx_gram_schmidt_eq junk W D2 t u (Nat.succ_pos r) hind
  obtain ⟨V, hV, hn, hs, -⟩ := mtx_cols_norm_correct junk (Matrix.of fun i j => gsCol W j i) (setCols D 0 l) u t
  have hs' : ∀ j, ∃ s : ℝ, 0 < s ∧ (fun i => V i j) = s • gsCol W j := by
    intro j
    obtain ⟨s, hs0, hs1⟩ := hs j (Function.ne_iff.1 (gsCol_ne_zero W hind j))
    exact ⟨s, hs0, funext fun i => hs1 i⟩
  have horth : ∀ a b : Fin l.length, (fun i => V i a) ⬝ᵥ (fun i => V i b) = if a = b then 1 else 0 := by
    intro a b
    split_ifs with hab
    · subst hab
      have := hn a
      simp only [dotProduct]
      rw [← this]
      exact Finset.sum_congr rfl fun i _ => (sq _).symm
    · obtain ⟨s, _, h1⟩ := hs' a
      obtain ⟨s', _, h2⟩ := hs' b
      rw [h1, h2, smul_dotProduct, dotProduct_smul, gsCol_orthogonal W hab, smul_zero, smul_zero]
  have hker : ∀ j : Fin l.length, M *ᵥ gsCol W j = 0 := by
    intro j
    induction j using WellFoundedLT.induction with
    | _ j ih =>
      rw [gsCol_eq, mulVec_sub, hWc, h.ker _ (List.getElem_mem _), zero_sub, neg_eq_zero, mulVec_sum]
      refine Finset.sum_eq_zero fun g hg => ?_
      rw [show (fun i => gsCol W g i * ((l[j.val] ⬝ᵥ gsCol W g) / (gsCol W g ⬝ᵥ gsCol W g))) =
        ((l[j.val] ⬝ᵥ gsCol W g) / (gsCol W g ⬝ᵥ gsCol W g)) • gsCol W g from funext fun i => by
          rw [Pi.smul_apply, smul_eq_mul, mul_comm], mulVec_smul, ih g (Finset.mem_Iio.1 hg), smul_zero]
  refine ⟨_, V, ?_, hV, ⟨?_, ?_, ?_⟩, horth⟩
  · rw [setCols_full D l rfl]
    exact hgs
  · intro v hv
    obtain ⟨j, rfl⟩ := (List.mem_ofFn' _ _).1 hv
    obtain ⟨s, _, h1⟩ := hs' j
    refine (congrArg (M *ᵥ ·) h1).trans ?_
    rw [mulVec_smul, hker, smul_zero]
  · refine indep_of_orth _ fun a b => ?_
    have := horth (Fin.cast (by simp) a) (Fin.cast (by simp) b)
    simp only [Fin.getElem_fin, List.getElem_ofFn]
    rw [show (if a = b then (1 : ℝ) else 0) = if Fin.cast (List.length_ofFn) a = Fin.cast List.length_ofFn b then 1 else 0 from
      if_congr (by simp [Fin.ext_iff]) rfl rfl]
    exact this
  · intro x hx
    refine (Submodule.span_le.2 ?_) (h.span x hx)
    intro v hv
    obtain ⟨j, hj, rfl⟩ := List.mem_iff_getElem.1 hv
    have hmem : ∀ g : Fin l.length, gsCol W g ∈ Submodule.span ℝ {v | v ∈ List.ofFn fun j i => V i j} := by
      intro g
      obtain ⟨s, hs0, h1⟩ := hs' g
      have : gsCol W g = s⁻¹ • fun i => V i g := by
        rw [h1, smul_smul, inv_mul_cancel₀ hs0.ne', one_smul]
      rw [this]
      exact Submodule.smul_mem _ _ (Submodule.subset_span ((List.mem_ofFn' _ _).2 ⟨g, rfl⟩))
    have := gsCol_eq W ⟨j, hj⟩
    rw [eq_sub_iff_add_eq] at this
    change (fun i => W i ⟨j, hj⟩) ∈ _
    rw [← this]
    refine Submodule.add_mem _ (hmem _) (Submodule.sum_mem _ fun g _ => ?_)
    rw [show (fun i => gsCol W g i * (((fun i => W i ⟨j, hj⟩) ⬝ᵥ gsCol W g) / (gsCol W g ⬝ᵥ gsCol W g))) =
        (((fun i => W i ⟨j, hj⟩) ⬝ᵥ gsCol W g) / (gsCol W g ⬝ᵥ gsCol W g)) • gsCol W g from funext fun i => by
          rw [Pi.smul_apply, smul_eq_mul, mul_comm]]
    exact Submodule.smul_mem _ _ (hmem g)

/-- Copying the columns of one matrix behind those of another. -/
theorem copyCols (V : Matrix (Fin n) (Fin c) ℝ) (t s : List XR) (x : Fin n → XR) (D : Matrix (Fin n) (Fin r) XR) (b : ℕ) (hn : 0 < n) :
    ∃ y : Fin n → XR, forN c (fun gi (s : Vec XR × Mtx XR × Nat) => do
      let (f, mev2, b) := s
      let (_, fd) ← mtxGetCol (mat V t) gi f.data
      let (_, mev2) ← mtxSetCol mev2 b fd
      return ({ f with data := fd }, mev2, b + 1)) (vecOf x [], mtxOf D s, b) =
      ok (vecOf y [], mtxOf (setCols D b (List.ofFn fun j i => V i j)) s, b + c) := by
  have hloop := forN_sat (n := c) (f := fun gi (s : Vec XR × Mtx XR × Nat) => do
      let (f, mev2, b) := s
      let (_, fd) ← mtxGetCol (mat V t) gi f.data
      let (_, mev2) ← mtxSetCol mev2 b fd
      return (({ f with data := fd } : Vec XR), mev2, b + 1)) (s := (vecOf x [], mtxOf D s, b))
    (fun m st => (∃ y, st.1 = vecOf y []) ∧ st.2.1 = mtxOf (setCols D b ((List.ofFn fun j i => V i j).take m)) s ∧ st.2.2 = b + m)
    ⟨⟨x, rfl⟩, by simp [setCols_nil], rfl⟩ (by
      rintro m hm ⟨f, mev2, b'⟩ ⟨⟨y, h1⟩, h2, h3⟩
      dsimp only at h1 h2 h3 ⊢
      subst h1 h2 h3
      obtain ⟨j, rfl⟩ : ∃ j : Fin c, j.val = m := ⟨⟨m, hm⟩, rfl⟩
      rw [show (vecOf y []).data = arrOf y [] from rfl, mat_getCol]
      simp only [ok_bind]
      have hl : ((List.ofFn fun j i => V i j).take j.val).length = j.val := by
        rw [List.length_take, List.length_ofFn]
        omega
      obtain ⟨rc, hrc⟩ := mtxSetCol_any (setCols D b ((List.ofFn fun j i => V i j).take j.val)) s [] (b + j.val) (fun i => V i j) hn
      rw [hrc]
      simp only [ok_bind, pure_eq, sat_ok]
      refine ⟨⟨fun i => XR.fin (V i j), rfl⟩, ?_, by omega⟩
      rw [List.take_succ_eq_append_getElem (by simp), ← setCols_append, hl]
      simp)
  obtain ⟨⟨f, mev2, b'⟩, hst, ⟨y, h1⟩, h2, h3⟩ := hloop
  dsimp only at h1 h2 h3
  rw [List.take_of_length_le (by simp)] at h2
  exact ⟨y, by rw [hst, h1, h2, h3]⟩

/-- The part of the function for one eigenvalue. -/
theorem eigenvectorsOf_spec (junk : ℕ → XR) (A : Matrix (Fin n) (Fin n) ℝ) (t : List XR) (orth : Bool) (lam : ℝ)
    (N1 N2 D : Matrix (Fin n) (Fin n) XR) (evec evec2 : Mtx XR) (x : Fin n → XR) (b : ℕ) (hn : 0 < n)
    (h1 : Big n evec) (h2 : Big n evec2) (hA : NoTiny (A - lam • 1)) :
    (eigenvectorsOf junk (mat A t) orth (XR.fin lam) (mtxOf N1 [], mtxOf N2 [], evec, evec2, vecOf x [], mtxOf D [], b)).sat fun s =>
      (∃ N : Matrix (Fin n) (Fin n) XR, s.1 = mtxOf N []) ∧ (∃ N : Matrix (Fin n) (Fin n) XR, s.2.1 = mtxOf N []) ∧
      Big n s.2.2.1 ∧ Big n s.2.2.2.1 ∧ (∃ y : Fin n → XR, s.2.2.2.2.1 = vecOf y []) ∧
      ∃ l, EigBlock A orth lam l ∧ s.2.2.2.2.2.1 = mtxOf (setCols D b l) [] ∧ s.2.2.2.2.2.2 = b + l.length := by
  unfold eigenvectorsOf
  obtain ⟨U, hU⟩ := uninit_eq junk n n
  simp only [mat_rows]
  rw [hU, id_init]
  simp only [ok_bind]
  rw [XR.fin_neg, mtx_scalar_mult_correct]
  simp only [ok_bind]
  rw [(mtx_add_sub_d_correct _ _ _ _).1]
  simp only [ok_bind]
  rw [show -lam • (1 : Matrix (Fin n) (Fin n) ℝ) + A = A - lam • 1 by rw [neg_smul]; abel]
  obtain ⟨P, G, N, hP, hG, hR, hg⟩ := mtxGaussReduc_rref junk (A - lam • 1) N1 N2 [] [] [] hn hA
  have hK := Rref.kerBasis hP hG hR
  rw [hg]
  simp only [ok_bind]
  have hlen : (freeCols G).length ≤ n := by
    unfold freeCols
    exact (List.length_filter_le _ _).trans (by simp)
  cases orth with
  | false =>
    rw [if_neg (by simp)]
    obtain ⟨M, y, hc⟩ := collectEigen_eq (junk 0) G [] [] [] x D b
    rw [hc]
    simp only [ok_bind, pure_eq, sat_ok]
    exact ⟨⟨N, rfl⟩, ⟨M.map XR.fin, rfl⟩, h1, h2, ⟨y, rfl⟩, _, ⟨hK, by simp⟩, rfl, by rw [List.length_map]⟩
  | true =>
    rw [if_pos rfl]
    obtain ⟨x', hcnt⟩ := count_eq (junk 0) G []
    rw [hcnt]
    simp only [ok_bind]
    set l := (freeCols G).map (nullVec G) with hl
    have hll : (freeCols G).length = l.length := by rw [hl, List.length_map]
    rw [hll] at hlen ⊢
    obtain ⟨D1, hD1⟩ := h1.reshape l.length hlen
    obtain ⟨D2, hD2⟩ := h2.reshape l.length hlen
    rw [hD1, hD2]
    obtain ⟨M, y, hc⟩ := collectEigen_eq (junk 0) G [] [] (evec.data.drop (n * l.length)) x D1 0
    rw [hc]
    simp only [ok_bind]
    obtain ⟨r', rfl⟩ : ∃ r', n = r' + 1 := ⟨n - 1, by omega⟩
    obtain ⟨G', V, hgs, hcn, hKB, horth⟩ := orth_block hK junk D1 D2 (evec.data.drop ((r' + 1) * l.length))
      (evec2.data.drop ((r' + 1) * l.length))
    rw [← hl, hgs]
    simp only [ok_bind]
    rw [hcn]
    simp only [ok_bind]
    obtain ⟨z, hz⟩ := copyCols V (evec.data.drop ((r' + 1) * l.length)) [] y D b hn
    rw [hz]
    simp only [ok_bind, pure_eq, sat_ok]
    refine ⟨⟨N, rfl⟩, ⟨M.map XR.fin, rfl⟩, h1.of _ hlen _, h2.of _ hlen _, ⟨z, rfl⟩, _, ⟨hKB, fun _ a b => ?_⟩, rfl, by rw [List.length_ofFn]⟩
    have := horth (Fin.cast (by simp) a) (Fin.cast (by simp) b)
    simp only [Fin.getElem_fin, List.getElem_ofFn]
    rw [show (if a = b then (1 : ℝ) else 0) = if Fin.cast (List.length_ofFn) a = Fin.cast List.length_ofFn b then 1 else 0 from
      if_congr (by simp [Fin.ext_iff]) rfl rfl]
    exact this

/-! ### Several eigenvalues -/

theorem indep_append {l1 l2 : List (Fin n → ℝ)} (h1 : LinearIndependent ℝ l1.get) (h2 : LinearIndependent ℝ l2.get)
    (hd : Disjoint (Submodule.span ℝ {v | v ∈ l1}) (Submodule.span ℝ {v | v ∈ l2})) : LinearIndependent ℝ (l1 ++ l2).get := by
  have hr : ∀ l : List (Fin n → ℝ), Set.range l.get = {v | v ∈ l} := fun l => by
    ext v
    simp [List.mem_iff_get]
  refine (linearIndependent_equiv' (finSumFinEquiv.trans (finCongr (by simp))) ?_).1 (h1.sum_type h2 (by rw [hr, hr]; exact hd))
  funext i
  rcases i with i | i
  · simp [List.getElem_append_left]
  · simp [List.getElem_append_right]

theorem EigBlock.eig {A : Matrix (Fin n) (Fin n) ℝ} {orth : Bool} {lam : ℝ} {l : List (Fin n → ℝ)} (h : EigBlock A orth lam l)
    {v : Fin n → ℝ} (hv : v ∈ l) : A *ᵥ v = lam • v := by
  have := h.basis.ker v hv
  rwa [sub_mulVec, smul_mulVec, one_mulVec, sub_eq_zero] at this

/-- A list of eigenvectors for the eigenvalues `L`, independent and complete, orthonormal within each eigenvalue if `orth`. -/
structure EigFamily (A : Matrix (Fin n) (Fin n) ℝ) (orth : Bool) (L : List ℝ) (T : List (Fin n → ℝ)) : Prop where
  indep : LinearIndependent ℝ T.get
  eig : ∀ v ∈ T, ∃ lam ∈ L, A *ᵥ v = lam • v
  span : ∀ lam ∈ L, ∀ x, A *ᵥ x = lam • x → x ∈ Submodule.span ℝ {v | v ∈ T ∧ A *ᵥ v = lam • v}
  orth : orth = true → ∀ (a b : Fin T.length) (mu : ℝ), A *ᵥ T[a] = mu • T[a] → A *ᵥ T[b] = mu • T[b] →
    T[a] ⬝ᵥ T[b] = if a = b then 1 else 0
  order : ∀ (p q : ℕ) (hp : p < T.length) (hq : q < T.length) (mu nu : ℝ), p < q → A *ᵥ T[p] = mu • T[p] → A *ᵥ T[q] = nu • T[q] →
    mu = nu ∨ [mu, nu].Sublist L

/-- The blocks of different eigenvalues are independent, and vectors of equal eigenvalues come from one block. -/
theorem blocks_indep {A : Matrix (Fin n) (Fin n) ℝ} {orth : Bool} {L : List ℝ} {ls : List (List (Fin n → ℝ))}
    (h : List.Forall₂ (EigBlock A orth) L ls) (hL : L.Nodup) : EigFamily A orth L ls.flatten := by
  induction h with
  | nil =>
    have : IsEmpty (Fin ([] : List (List (Fin n → ℝ))).flatten.length) := ⟨fun a => absurd a.2 (by simp)⟩
    refine ⟨linearIndependent_empty_type, by simp, by simp, fun _ a => ?_, ?_⟩
    · exact absurd a.2 (by simp)
    · intro p q hp
      simp at hp
  | @cons lam l L ls h1 h2 ih =>
    obtain ⟨i1, i2, i3, i4, i5⟩ := ih (List.nodup_cons.1 hL).2
    have hnot := (List.nodup_cons.1 hL).1
    have heigen : ∀ (v : Fin n → ℝ) (mu : ℝ), A *ᵥ v = mu • v → v ∈ Module.End.eigenspace (Matrix.toLin' A) mu := by
      intro v mu hv
      rw [Module.End.mem_eigenspace_iff, Matrix.toLin'_apply]
      exact hv
    rw [List.flatten_cons]
    have hne : ∀ v ∈ l ++ ls.flatten, v ≠ 0 := by
      intro v hv h0
      rcases List.mem_append.1 hv with hv | hv
      · obtain ⟨a, ha, rfl⟩ := List.mem_iff_getElem.1 hv
        exact h1.basis.indep.ne_zero ⟨a, ha⟩ h0
      · obtain ⟨a, ha, rfl⟩ := List.mem_iff_getElem.1 hv
        exact i1.ne_zero ⟨a, ha⟩ h0
    have huniq : ∀ (v : Fin n → ℝ) (mu nu : ℝ), v ≠ 0 → A *ᵥ v = mu • v → A *ᵥ v = nu • v → mu = nu := by
      intro v mu nu hv hm hn
      rw [hm] at hn
      exact smul_left_injective ℝ hv hn
    refine ⟨indep_append h1.basis.indep i1 ?_, ?_, ?_, ?_, ?_⟩
    · refine ((Module.End.eigenspaces_iSupIndep (Matrix.toLin' A)) lam).mono ?_ ?_
      · refine Submodule.span_le.2 fun v hv => heigen v lam (h1.eig hv)
      · refine Submodule.span_le.2 fun v hv => ?_
        obtain ⟨mu, hmu, h3⟩ := i2 v hv
        have hne : mu ≠ lam := fun h => hnot (h ▸ hmu)
        exact (le_iSup₂_of_le mu hne le_rfl : Module.End.eigenspace (Matrix.toLin' A) mu ≤ _) (heigen v mu h3)
    · intro v hv
      rcases List.mem_append.1 hv with hv | hv
      · exact ⟨lam, List.mem_cons_self, h1.eig hv⟩
      · obtain ⟨mu, hmu, h3⟩ := i2 v hv
        exact ⟨mu, List.mem_cons_of_mem _ hmu, h3⟩
    · intro mu hmu x hx
      rcases List.mem_cons.1 hmu with rfl | hmu
      · have := h1.basis.span x (by rw [sub_mulVec, smul_mulVec, one_mulVec, hx, sub_self])
        refine Submodule.span_mono ?_ this
        intro v hv
        exact ⟨List.mem_append_left _ hv, h1.eig hv⟩
      · refine Submodule.span_mono ?_ (i3 mu hmu x hx)
        rintro v ⟨hv, h4⟩
        exact ⟨List.mem_append_right _ hv, h4⟩
    · intro ho a b mu ha hb
      simp only [Fin.getElem_fin] at ha hb ⊢
      have hla : a.val < l.length ∨ l.length ≤ a.val ∧ a.val - l.length < ls.flatten.length := by
        have := lt_of_lt_of_eq a.2 List.length_append
        omega
      have hlb : b.val < l.length ∨ l.length ≤ b.val ∧ b.val - l.length < ls.flatten.length := by
        have := lt_of_lt_of_eq b.2 List.length_append
        omega
      have hcross : ∀ (p q : ℕ) (hp : p < l.length) (hq : q < ls.flatten.length), A *ᵥ l[p] = mu • l[p] →
          A *ᵥ ls.flatten[q] = mu • ls.flatten[q] → False := by
        intro p q hp hq h5 h6
        have e1 := huniq _ _ _ (hne _ (List.mem_append_left _ (List.getElem_mem hp))) h5 (h1.eig (List.getElem_mem hp))
        obtain ⟨nu, hnu, h7⟩ := i2 _ (List.getElem_mem hq)
        have e2 := huniq _ _ _ (hne _ (List.mem_append_right _ (List.getElem_mem hq))) h6 h7
        exact hnot (by rw [← e1, e2]; exact hnu)
      rcases hla with hla | ⟨hla, hla'⟩ <;> rcases hlb with hlb | ⟨hlb, hlb'⟩
      · rw [List.getElem_append_left hla, List.getElem_append_left hlb]
        have := h1.orth ho ⟨a.val, hla⟩ ⟨b.val, hlb⟩
        refine this.trans (if_congr ?_ rfl rfl)
        simp [Fin.ext_iff]
      · rw [List.getElem_append_left hla] at ha
        rw [List.getElem_append_right hlb] at hb
        exact (hcross _ _ hla hlb' ha hb).elim
      · rw [List.getElem_append_right hla] at ha
        rw [List.getElem_append_left hlb] at hb
        exact (hcross _ _ hlb hla' hb ha).elim
      · rw [List.getElem_append_right hla] at ha ⊢
        rw [List.getElem_append_right hlb] at hb ⊢
        have := i4 ho ⟨a.val - l.length, hla'⟩ ⟨b.val - l.length, hlb'⟩ mu ha hb
        refine this.trans (if_congr ?_ rfl rfl)
        simp only [Fin.ext_iff]
        omega
    · intro p q hp hq mu nu hpq h5 h6
      rw [List.length_append] at hp hq
      rcases Nat.lt_or_ge p l.length with hpl | hpl
      · rw [List.getElem_append_left hpl] at h5
        have e1 := huniq _ _ _ (hne _ (List.mem_append_left _ (List.getElem_mem hpl))) h5 (h1.eig (List.getElem_mem hpl))
        subst e1
        rcases Nat.lt_or_ge q l.length with hql | hql
        · rw [List.getElem_append_left hql] at h6
          exact Or.inl (huniq _ _ _ (hne _ (List.mem_append_left _ (List.getElem_mem hql))) h6 (h1.eig (List.getElem_mem hql))).symm
        · rw [List.getElem_append_right hql] at h6
          have hql' : q - l.length < ls.flatten.length := by omega
          obtain ⟨nu', hnu', h7⟩ := i2 _ (List.getElem_mem hql')
          have e2 := huniq _ _ _ (hne _ (List.mem_append_right _ (List.getElem_mem hql'))) h6 h7
          subst e2
          exact Or.inr (List.cons_sublist_cons.2 (List.singleton_sublist.2 hnu'))
      · rw [List.getElem_append_right hpl] at h5
        rw [List.getElem_append_right (by omega)] at h6
        rcases i5 (p - l.length) (q - l.length) (by omega) (by omega) mu nu (by omega) h5 h6 with h | h
        · exact Or.inl h
        · exact Or.inr (h.trans (List.sublist_cons_self _ _))

end Verif
