import Verif.Lemmas.Vectors
import Mathlib.Logic.Equiv.Fin.Basic
import Mathlib.Data.List.Sort
import Mathlib.Tactic.Linarith
import Mathlib.Data.List.FinRange
import Mathlib.Logic.Equiv.Basic

/-! # Helper lemmas for the quicksort of vectors.c -/

namespace Verif

open Out

/-- `[low, high]` of `d` holds the reals `f`. -/
def Holds1 (d : List XR) (f : ℕ → ℝ) (low high : ℕ) : Prop :=
  ∀ k, low ≤ k → k ≤ high → d[k]? = some (XR.fin (f k))

/-- `d'` is `d` permuted by `σ`, which moves only positions in `[low, high]`. -/
structure PermOn (d d' : List XR) (σ : Equiv.Perm ℕ) (low high : ℕ) : Prop where
  fix : ∀ k, ¬ (low ≤ k ∧ k ≤ high) → σ k = k
  get : ∀ k, d'[k]? = d[σ k]?

theorem PermOn.mem {d d' : List XR} {σ : Equiv.Perm ℕ} {low high : ℕ} (h : PermOn d d' σ low high)
    {k : ℕ} (hk : low ≤ k ∧ k ≤ high) : low ≤ σ k ∧ σ k ≤ high := by
  by_contra hc
  have := h.fix _ hc
  have := σ.injective this
  rw [this] at hc
  exact hc hk

theorem PermOn.trans {d d' d'' : List XR} {σ τ : Equiv.Perm ℕ} {low high : ℕ}
    (h : PermOn d d' σ low high) (h' : PermOn d' d'' τ low high) :
    PermOn d d'' (τ.trans σ) low high := by
  refine ⟨fun k hk => ?_, fun k => ?_⟩
  · rw [Equiv.trans_apply, h'.fix k hk, h.fix k hk]
  · rw [h'.get, h.get]
    rfl

theorem PermOn.mono {d d' : List XR} {σ : Equiv.Perm ℕ} {low high l h : ℕ}
    (hp : PermOn d d' σ low high) (hl : l ≤ low) (hh : high ≤ h) : PermOn d d' σ l h :=
  ⟨fun k hk => hp.fix k (by omega), hp.get⟩

theorem PermOn.refl (d : List XR) (low high : ℕ) : PermOn d d (Equiv.refl ℕ) low high :=
  ⟨fun _ _ => rfl, fun _ => rfl⟩

theorem PermOn.length {d d' : List XR} {σ : Equiv.Perm ℕ} {low high : ℕ}
    (h : PermOn d d' σ low high) (hh : high < d.length) : d'.length = d.length := by
  have key : ∀ k, k < d'.length ↔ σ k < d.length := by
    intro k
    have := h.get k
    constructor
    · intro hk
      rw [List.getElem?_eq_getElem hk] at this
      exact (List.getElem?_eq_some_iff.1 this.symm).1
    · intro hk
      rw [List.getElem?_eq_getElem hk] at this
      exact (List.getElem?_eq_some_iff.1 this).1
  apply le_antisymm
  · by_contra hc
    have := (key d.length).1 (by omega)
    rw [h.fix _ (by omega)] at this
    omega
  · by_contra hc
    have h1 : ¬ d'.length < d'.length := by omega
    rw [key] at h1
    by_cases h2 : low ≤ d'.length ∧ d'.length ≤ high
    · have := h.mem h2
      omega
    · rw [h.fix _ h2] at h1
      omega

theorem PermOn.holds {d d' : List XR} {σ : Equiv.Perm ℕ} {low high : ℕ} {f : ℕ → ℝ}
    (h : PermOn d d' σ low high) (hf : Holds1 d f low high) : Holds1 d' (f ∘ σ) low high := by
  intro k h1 h2
  have := h.mem ⟨h1, h2⟩
  rw [h.get, hf _ this.1 this.2]
  rfl

/-- Swapping two cells. -/
theorem permOn_swap {d : List XR} {i j low high : ℕ} (hi : low ≤ i) (hij : i ≤ high) (hj : low ≤ j)
    (hjh : j ≤ high) (hh : high < d.length) :
    PermOn d ((d.set i (d[j]'(by omega))).set j (d[i]'(by omega))) (Equiv.swap i j) low high := by
  refine ⟨fun k hk => Equiv.swap_apply_of_ne_of_ne (by omega) (by omega), fun k => ?_⟩
  have hi' : i < d.length := by omega
  have hj' : j < d.length := by omega
  rw [List.getElem?_set, List.getElem?_set, Equiv.swap_apply_def]
  simp only [List.length_set]
  by_cases hkj : j = k
  · subst hkj
    rw [if_pos rfl, if_pos hj']
    by_cases hji : j = i
    · subst hji
      rw [if_pos rfl, List.getElem?_eq_getElem hj']
    · rw [if_neg hji, if_pos rfl, List.getElem?_eq_getElem hi']
  · rw [if_neg hkj]
    by_cases hki : i = k
    · subst hki
      rw [if_pos rfl, if_pos hi', if_pos rfl, List.getElem?_eq_getElem hj']
    · rw [if_neg hki, if_neg (Ne.symm hki), if_neg (Ne.symm hkj)]

theorem qsUp_spec {d : List XR} {f : ℕ → ℝ} {p low high : ℕ} (hf : Holds1 d f low high)
    (hp : low ≤ p ∧ p ≤ high) (hlen : high + 1 < d.length) (i : ℕ) (hi : low ≤ i)
    (hih : i ≤ high + 1) (hle : ∀ k, low ≤ k → k < i → f k ≤ f p) :
    (qsUp d p high i).sat fun i' => i ≤ i' ∧ i' ≤ high + 1 ∧ (∀ k, low ≤ k → k < i' → f k ≤ f p) ∧
      (i' ≤ high → f p < f i') ∧ (i ≤ high → f i ≤ f p → i < i') := by
  induction hn : high + 1 - i generalizing i with
  | zero =>
    obtain rfl : i = high + 1 := by omega
    rw [qsUp, rd_lt (by omega), rd_of (hf p hp.1 hp.2)]
    simp only [ok_bind]
    rw [if_neg (by omega)]
    simp only [pure_eq, sat_ok]
    exact ⟨le_rfl, le_rfl, hle, by omega, by omega⟩
  | succ n ih =>
    rw [qsUp, rd_of (hf i hi (by omega)), rd_of (hf p hp.1 hp.2)]
    simp only [ok_bind, XR.fin_le]
    split
    · rename_i h
      refine (ih (i + 1) (by omega) (by omega) ?_ (by omega)).mono ?_
      · intro k h1 h2
        rcases Nat.lt_succ_iff_lt_or_eq.1 h2 with h2 | rfl
        · exact hle k h1 h2
        · exact h.1
      · rintro i' ⟨h1, h2, h3, h4, h5⟩
        exact ⟨by omega, h2, h3, h4, fun _ _ => by omega⟩
    · rename_i h
      simp only [pure_eq, sat_ok]
      have : f p < f i := by
        by_contra hc
        exact h ⟨le_of_not_gt hc, by omega⟩
      exact ⟨le_rfl, hih, hle, fun _ => this, fun _ h => absurd this (not_lt.2 h)⟩

theorem qsDown_spec {d : List XR} {f : ℕ → ℝ} {low high : ℕ} (hf : Holds1 d f low high)
    (j : ℕ) (hj : low ≤ j) (hjh : j ≤ high)
    (hgt : ∀ k, j < k → k ≤ high → f low < f k) :
    (qsDown d low low j).sat fun j' => low ≤ j' ∧ j' ≤ j ∧ (∀ k, j' < k → k ≤ high → f low < f k) ∧
      f j' ≤ f low := by
  induction j with
  | zero =>
    rw [qsDown.eq_def, rd_of (hf 0 hj hjh), rd_of (hf low le_rfl (by omega))]
    obtain rfl : low = 0 := by omega
    simp only [ok_bind, XR.fin_gt]
    rw [if_neg (by simp)]
    simp only [pure_eq, sat_ok]
    exact ⟨le_rfl, le_rfl, hgt, le_rfl⟩
  | succ j ih =>
    rw [qsDown.eq_def, rd_of (hf (j + 1) hj hjh), rd_of (hf low le_rfl (by omega))]
    simp only [ok_bind, XR.fin_gt]
    split
    · rename_i h
      have hne : low ≠ j + 1 := by
        rintro rfl
        exact lt_irrefl _ h.1
      refine (ih (by omega) (by omega) ?_).mono ?_
      · intro k h1 h2
        rcases Nat.lt_or_ge (j + 1) k with h3 | h3
        · exact hgt k h3 h2
        · obtain rfl : k = j + 1 := by omega
          exact h.1
      · rintro j' ⟨h1, h2, h3, h4⟩
        exact ⟨h1, by omega, h3, h4⟩
    · rename_i h
      simp only [pure_eq, sat_ok]
      refine ⟨hj, le_rfl, hgt, ?_⟩
      by_contra hc
      exact h ⟨not_le.1 hc, hj⟩

/-- Result of the partition loop. -/
theorem qsPartition_spec (fuel : ℕ) {d : List XR} {f : ℕ → ℝ} {low high : ℕ}
    (hf : Holds1 d f low high) (hlen : high + 1 < d.length) (i j : ℕ) (hij : i < j) (hi : low ≤ i)
    (hjh : j ≤ high) (hfuel : j - i + 1 ≤ fuel) (hle : ∀ k, low ≤ k → k < i + 1 → f k ≤ f low)
    (hgt : ∀ k, j < k → k ≤ high → f low < f k) :
    (qsPartition fuel d low low high i j).sat fun r => r.2.1 = r.2.2 + 1 ∧ low ≤ r.2.2 ∧
      r.2.2 ≤ high ∧ ∃ σ, PermOn d r.1 σ low high ∧ σ low = low ∧
        (∀ k, low ≤ k → k ≤ r.2.2 → f (σ k) ≤ f low) ∧
        (∀ k, r.2.2 < k → k ≤ high → f low < f (σ k)) := by
  induction fuel generalizing d f i j with
  | zero => omega
  | succ fuel ih =>
    rw [qsPartition, if_pos hij]
    refine (qsUp_spec hf ⟨le_rfl, by omega⟩ hlen i hi (by omega)
      (fun k h1 h2 => hle k h1 (by omega))).bind ?_
    rintro i' ⟨h1, h2, h3, h4, h5⟩
    have h5 := h5 (by omega) (hle i hi (by omega))
    refine (qsDown_spec hf j (by omega) hjh hgt).bind ?_
    rintro j' ⟨g1, g2, g3, g4⟩
    have hlow : low < i' := by omega
    split
    · rename_i hlt
      have hi'h : i' ≤ high := by omega
      rw [rd_of (hf i' (by omega) hi'h), rd_of (hf j' (by omega) (by omega))]
      simp only [ok_bind]
      rw [wr_lt _ (by omega), ok_bind, wr_lt _ (by simp; omega), ok_bind]
      have hP := permOn_swap (d := d) (by omega : low ≤ i') hi'h (by omega : low ≤ j')
        (by omega : j' ≤ high) (by omega)
      have ei : d[i']'(by omega) = XR.fin (f i') := by
        have := hf i' (by omega) hi'h
        rwa [List.getElem?_eq_getElem (by omega), Option.some_inj] at this
      have ej : d[j']'(by omega) = XR.fin (f j') := by
        have := hf j' (by omega) (by omega)
        rwa [List.getElem?_eq_getElem (by omega), Option.some_inj] at this
      rw [ei, ej] at hP
      have hs : Equiv.swap i' j' low = low :=
        Equiv.swap_apply_of_ne_of_ne (by omega) (by omega)
      refine (ih (f := f ∘ Equiv.swap i' j') (hP.holds hf) (by simpa using hlen) i' j' hlt (by omega)
        (by omega) (by omega) ?_ ?_).mono ?_
      · intro k k1 k2
        simp only [Function.comp, hs]
        by_cases hk : k = i'
        · rw [hk, Equiv.swap_apply_left]
          exact g4
        · rw [Equiv.swap_apply_of_ne_of_ne hk (by omega)]
          exact h3 k k1 (by omega)
      · intro k k1 k2
        simp only [Function.comp, hs]
        rw [Equiv.swap_apply_of_ne_of_ne (by omega) (by omega)]
        exact g3 k k1 k2
      · rintro ⟨d', i2, j2⟩ ⟨r1, r2, r3, σ, s1, s2, s3, s4⟩
        refine ⟨r1, r2, r3, _, hP.trans s1, ?_, ?_, ?_⟩
        · rw [Equiv.trans_apply, s2, hs]
        · intro k k1 k2
          have := s3 k k1 k2
          simpa only [Function.comp, hs, Equiv.trans_apply] using this
        · intro k k1 k2
          have := s4 k k1 k2
          simpa only [Function.comp, hs, Equiv.trans_apply] using this
    · rename_i hge
      have hij' : i' = j' + 1 := by
        rcases Nat.lt_or_ge high i' with hc | hc
        · rcases Nat.lt_or_ge j' high with hj | hj
          · have a := g3 (j' + 1) (by omega) (by omega)
            have b := h3 (j' + 1) (by omega) (by omega)
            exact absurd a (not_lt.2 b)
          · omega
        · have := h4 hc
          have hne : i' ≠ j' := by
            rintro rfl
            exact absurd this (not_lt.2 g4)
          by_contra hcc
          have a := g3 (j' + 1) (by omega) (by omega)
          have b := h3 (j' + 1) (by omega) (by omega)
          exact absurd a (not_lt.2 b)
      match fuel, hfuel with
      | 0, hf => omega
      | fuel + 1, _ =>
        rw [qsPartition, if_neg (by omega), sat_ok]
        refine ⟨hij', g1, show j' ≤ high by omega, Equiv.refl _, PermOn.refl _ _ _, rfl, ?_, ?_⟩
        · intro k k1 k2
          exact h3 k k1 (by change k ≤ j' at k2; omega)
        · intro k k1 k2
          exact g3 k k1 k2

/-- The quicksort sorts pairwise different numbers, if one cell behind the range can be read. -/
theorem quicksort_spec (fuel : ℕ) {d : List XR} {f : ℕ → ℝ} {low high : ℕ}
    (hf : Holds1 d f low high) (hlen : high + 1 < d.length) (hsz : d.length < SIZE_MOD)
    (hinj : ∀ a b, low ≤ a → a ≤ high → low ≤ b → b ≤ high → f a = f b → a = b)
    (hfuel : 2 * (high - low) + 2 ≤ fuel ∨
      (2 * (high - low) + 1 ≤ fuel ∧ ∃ k, low ≤ k ∧ k ≤ high ∧ f low < f k) ∨
      high ≤ low ∧ 1 ≤ fuel) :
    (vecQuicksort fuel d low high).sat fun d' => ∃ σ, PermOn d d' σ low high ∧
      ∀ a b, low ≤ a → a < b → b ≤ high → f (σ a) < f (σ b) := by
  induction fuel generalizing d f low high with
  | zero => omega
  | succ fuel ih =>
    rw [vecQuicksort]
    split
    · rename_i hlt
      refine (qsPartition_spec (fuel + 1) hf hlen low high hlt le_rfl le_rfl (by omega) ?_ ?_).bind ?_
      · intro k h1 h2
        obtain rfl : k = low := by omega
        exact le_rfl
      · intro k h1 h2
        omega
      · rintro ⟨d1, i, j⟩ ⟨hij, hj1, hj2, σ, hP, hσ, hle, hgt⟩
        simp only at hij hj1 hj2 hle hgt hP
        subst hij
        have hl1 := hP.length (by omega)
        have hf1 := hP.holds hf
        have hP2 := permOn_swap (d := d1) hj1 hj2 le_rfl (by omega : low ≤ high) (by omega)
        have hf2 := hP2.holds hf1
        set f2 := (f ∘ σ) ∘ Equiv.swap j low with hf2def
        simp only
        rw [rd_lt (by omega), ok_bind, rd_lt (by omega), ok_bind, wr_lt _ (by omega), ok_bind,
          wr_lt _ (by simp; omega), ok_bind]
        set d2 := (d1.set j (d1[low]'(by omega))).set low (d1[j]'(by omega)) with hd2
        have hl2 : d2.length = d.length := by rw [hd2]; simp [hl1]
        have e1 : szSub (j + 1) 1 = j := szSub_le (by omega)
        have e2 : szAdd j 1 = j + 1 := by
          unfold szAdd
          rw [SIZE_MOD_eq] at *
          omega
        have f2j : f2 j = f low := by simp [hf2def, hσ]
        have f2le : ∀ k, low ≤ k → k ≤ j → f2 k ≤ f low := by
          intro k k1 k2
          simp only [hf2def, Function.comp]
          by_cases h1 : k = j
          · rw [h1, Equiv.swap_apply_left, hσ]
          · by_cases h2 : k = low
            · rw [h2, Equiv.swap_apply_right]
              exact hle j hj1 le_rfl
            · rw [Equiv.swap_apply_of_ne_of_ne h1 h2]
              exact hle k k1 k2
        have f2gt : ∀ k, j < k → k ≤ high → f low < f2 k := by
          intro k k1 k2
          simp only [hf2def, Function.comp]
          rw [Equiv.swap_apply_of_ne_of_ne (by omega) (by omega)]
          exact hgt k k1 k2
        have hP12 := hP.trans hP2
        have inj2 : ∀ a b, low ≤ a → a ≤ high → low ≤ b → b ≤ high → f2 a = f2 b → a = b := by
          intro a b a1 a2 b1 b2 hab
          have ha := hP12.mem ⟨a1, a2⟩
          have hb := hP12.mem ⟨b1, b2⟩
          exact ((Equiv.swap j low).trans σ).injective (hinj _ _ ha.1 ha.2 hb.1 hb.2 hab)
        rw [e1, e2]
        -- left part
        have hleft := ih (d := d2) (f := f2) (low := low) (high := j)
          (fun k h1 h2 => hf2 k h1 (by omega)) (by omega) (by omega)
          (fun a b a1 a2 b1 b2 => inj2 a b a1 (by omega) b1 (by omega)) (by
            rcases Nat.lt_or_ge j high with hjh | hjh
            · by_cases hlj : low = j
              · right; right; omega
              · left; omega
            · -- the pivot was the largest element: the same range again, with another pivot
              obtain rfl : j = high := by omega
              rcases hfuel with h | ⟨_, k, k1, k2, k3⟩ | h
              · right; left
                refine ⟨by omega, j, by omega, le_rfl, ?_⟩
                refine lt_of_le_of_ne (by rw [f2j]; exact f2le low le_rfl (by omega)) ?_
                intro hc
                have := inj2 low j le_rfl (by omega) (by omega) le_rfl hc
                omega
              · exfalso
                have hk : ∃ k', σ k' = k ∧ low ≤ k' ∧ k' ≤ j := by
                  refine ⟨σ.symm k, by simp, ?_⟩
                  by_contra hc
                  have := hP.fix _ hc
                  rw [Equiv.apply_symm_apply] at this
                  rw [← this] at hc
                  exact hc ⟨k1, k2⟩
                obtain ⟨k', rfl, h1, h2⟩ := hk
                exact absurd k3 (not_lt.2 (hle k' h1 h2))
              · omega)
        refine hleft.bind ?_
        rintro d3 ⟨τ, hτ, hs3⟩
        have hl3 : d3.length = d2.length := hτ.length (by omega)
        have hτ' := hτ.mono (le_refl low) hj2
        have hf3 := hτ'.holds hf2
        have fixτ : ∀ k, j < k → τ k = k := fun k hk => hτ.fix k (by omega)
        have hright := ih (d := d3) (f := f2 ∘ τ) (low := j + 1) (high := high)
          (fun k h1 h2 => hf3 k (by omega) h2) (by omega) (by omega)
          (fun a b a1 a2 b1 b2 hab => by
            simp only [Function.comp] at hab
            rw [fixτ a (by omega), fixτ b (by omega)] at hab
            exact inj2 a b (by omega) a2 (by omega) b2 hab) (by
              rcases Nat.lt_or_ge (j + 1) high with h | h
              · left; omega
              · right; right; omega)
        refine hright.mono ?_
        rintro d4 ⟨ρ, hρ, hs4⟩
        have hρ' := hρ.mono (by omega : low ≤ j + 1) le_rfl
        refine ⟨_, hP12.trans (hτ'.trans hρ'), ?_⟩
        intro a b a1 hab b2
        have key : ∀ k, f (((ρ.trans τ).trans ((Equiv.swap j low).trans σ)) k) = f2 (τ (ρ k)) := by
          intro k
          rfl
        rw [key, key]
        have lowfix : ∀ k, k ≤ j → ρ k = k := fun k hk => hρ.fix k (by omega)
        rcases Nat.lt_or_ge j a with ha | ha
        · exact hs4 a b (by omega) hab b2
        · rw [lowfix a ha]
          rcases Nat.lt_or_ge j b with hb | hb
          · have m1 := hτ.mem ⟨a1, ha⟩
            have m2 := hρ.mem ⟨(by omega : j + 1 ≤ b), b2⟩
            rw [fixτ (ρ b) (by omega)]
            exact lt_of_le_of_lt (f2le _ m1.1 m1.2) (f2gt _ (by omega) m2.2)
          · rw [lowfix b hb]
            exact hs3 a b a1 hab hb
    · rw [sat_ok]
      exact ⟨Equiv.refl _, PermOn.refl _ _ _, fun a b h1 h2 h3 => by omega⟩

end Verif
