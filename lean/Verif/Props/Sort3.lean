import Verif.Props.Sort2
import Verif.Props.Stat6
import Verif.Lemmas.Safe

/-!
# Time weighted mean of samples at close times (C105)
-/

namespace Verif

open Out

theorem XR.zero_mul_two (a : XR) : XR.fin 0 * a / XR.fin 2 = XR.fin 0 ∨ XR.fin 0 * a / XR.fin 2 = XR.nan := by
  cases a with
  | fin a => left; rw [XR.fin_mul, XR.fin_div (by norm_num)]; simp
  | pinf => right; show XR.div (XR.mul _ _) _ = _; simp [XR.mul, XR.div, XR.infOf]
  | ninf => right; show XR.div (XR.mul _ _) _ = _; simp [XR.mul, XR.div, XR.infOf]
  | nan => right; rfl

/-- C105, negation: for samples at different times, at least 10⁻⁶ apart and so not refused, but all of them less than 10⁻⁵ from time
zero, the result is not a number and the return code reports success, whatever the values: `zsl_vec_sort` merges the times. -/
theorem sta_time_weighted_mean_tiny {k : ℕ} (fuel : ℕ) (extra : List XR) (junk : ℕ → XR) (t v : Fin (k + 1) → ℝ) (tt tv : List XR) (m : XR)
    (hv : ∀ i, 0 ≤ v i) (ht : ∀ i, |t i| < 1e-5) (hd : ∀ i j, i ≠ j → 1e-6 ≤ |t i - t j|) (hex : extra ≠ [])
    (hf : 2 * (k + 1) ≤ fuel) (hm : k + 1 + extra.length < SIZE_MOD) :
    staTimeWeightedMean fuel extra junk (vec v tv) (vec t tt) m = ok (0, XR.nan) := by
  rw [staTimeWeightedMean, if_neg (by simp), vec_sz, negLoop, ok_bind, if_neg (by push Not; exact hv)]
  dsimp only
  rw [vec_sz, nearLoop, ok_bind, if_neg (by rintro ⟨i, j, hij, hc⟩; exact absurd hc (not_lt.2 (hd i j hij)))]
  dsimp only
  rw [if_neg (by omega), vecUninit_eq, vec_sort_tiny fuel extra t _ tt (by omega) (Or.inl hex) hf hm ht, ok_bind]
  dsimp only
  have hr : ∀ i, i < k + 1 → rd (List.replicate (k + 1) (XR.fin 0)) i = ok (XR.fin 0) := by
    intro i hi
    rw [rd_lt (by simpa using hi), List.getElem_replicate]
  have h1 : (forN (k + 1) (fun i vs =>
      forN (k + 1) (fun g vs => do
        let a ← rd (List.replicate (k + 1) (XR.fin 0)) i
        let b ← rd (vec t tt).data g
        if CReal.lt (CReal.abs (a - b)) (lit 1e-6) then do
          let x ← rd (vec v tv).data g
          wr vs i x
        else return vs) vs) (junkArr junk (k + 1))).sat fun vs => vs.length = k + 1 := by
    refine forN_sat (fun _ (vs : List XR) => vs.length = k + 1) (by simp [junkArr]) ?_
    intro i hi vs hvs
    refine forN_sat (fun _ (vs : List XR) => vs.length = k + 1) hvs ?_
    intro g hg vs hvs
    rw [hr i hi, ok_bind, show rd (vec t tt).data g = ok (XR.fin (t ⟨g, hg⟩)) from vec_rd t tt ⟨g, hg⟩, ok_bind]
    split
    · rw [show rd (vec v tv).data g = ok (XR.fin (v ⟨g, hg⟩)) from vec_rd v tv ⟨g, hg⟩, ok_bind, wr_sat]
      exact ⟨by omega, by simpa using hvs⟩
    · rw [pure_eq, sat_ok]
      exact hvs
  obtain ⟨vs, e, hvs⟩ := h1
  refine Eq.trans (congrArg (fun x => x >>= _) e) ?_
  rw [ok_bind, Nat.add_sub_cancel]
  have h2 : (forN k (fun j' sum => do
      let t1 ← rd (List.replicate (k + 1) (XR.fin 0)) (j' + 1)
      let t0 ← rd (List.replicate (k + 1) (XR.fin 0)) j'
      let v1 ← rd vs (j' + 1)
      let v0 ← rd vs j'
      return sum + (t1 - t0) * (v1 + v0) / lit 2) (lit 0)).sat fun s => s = XR.fin 0 ∨ s = XR.nan := by
    refine forN_sat (fun _ (s : XR) => s = XR.fin 0 ∨ s = XR.nan) (Or.inl lit_zero') ?_
    intro j hj s hs
    rw [hr _ (by omega), ok_bind, hr _ (by omega), ok_bind, rd_lt (by omega), ok_bind, rd_lt (by omega), ok_bind, pure_eq, sat_ok,
      XR.fin_sub, sub_self, lit_two]
    rcases hs with rfl | rfl
    · rcases XR.zero_mul_two (vs[j + 1] + vs[j]) with h | h
      · left; rw [h, XR.fin_add, add_zero]
      · right; rw [h]; rfl
    · right; rfl
  obtain ⟨s, e2, hs⟩ := h2
  refine Eq.trans (congrArg (fun x => x >>= _) e2) ?_
  rw [ok_bind, hr _ (by omega), ok_bind, hr _ (by omega), ok_bind, XR.fin_sub, sub_self, pure_eq]
  refine congrArg (fun x => ok ((0 : ℤ), x)) ?_
  rcases hs with rfl | rfl
  · show XR.div (XR.fin 0) (XR.fin 0) = XR.nan
    simp [XR.div, XR.infOf]
  · rfl

/-- Example: readings 1 and 3 taken at 0 and 5 microseconds. -/
example (junk : ℕ → XR) (m : XR) :
    staTimeWeightedMean 4 [XR.fin 7] junk (vec ![(1 : ℝ), 3] []) (vec ![(0 : ℝ), 5e-6] []) m = ok (0, XR.nan) :=
  sta_time_weighted_mean_tiny (k := 1) 4 _ junk _ _ [] [] m (fun i => by fin_cases i <;> norm_num)
    (fun i => by fin_cases i <;> norm_num [abs_lt]) (fun i j hij => by
      fin_cases i <;> fin_cases j <;> first | exact absurd rfl hij | norm_num [abs_of_pos])
    (by simp) (by norm_num) (by rw [SIZE_MOD_eq]; norm_num)

end Verif
