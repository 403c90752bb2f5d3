import Verif.Props.Safe4e

/-!
# Subsets whose end wraps around (C115)
-/

set_option linter.unusedSectionVars false

namespace Verif

open Out

variable {R : Type} [CReal R]

/-- C115. `zsl_vec_get_subset` computes `offset + len` in `size_t`. If the sum wraps around to an index inside the vector, the length is not clipped as it is for
other lengths that are too large: the call is refused and the output keeps its size and contents, even if there is room in it for all that is left of the
vector. The only condition is that the two sizes together are below the range of `size_t`. -/
theorem vec_get_subset_wraps (v w : Vec R) (offset len : ℕ) (ho : offset < v.sz) (hlen : len < SIZE_MOD) (hsz : v.sz + w.sz ≤ SIZE_MOD)
    (hwrap : SIZE_MOD ≤ offset + len) (hin : offset + len - SIZE_MOD < v.sz) : vecGetSubset v offset len w = ok (-EINVAL, w) := by
  unfold vecGetSubset
  rw [if_neg (by omega)]
  have h1 : szAdd offset len = offset + len - SIZE_MOD := by
    unfold szAdd
    rw [Nat.mod_eq_sub_mod hwrap, Nat.mod_eq_of_lt (by omega)]
  dsimp only
  have h2 : (if offset + len - SIZE_MOD ≥ v.sz then v.sz - offset else len) = len := if_neg (by omega)
  rw [h1, h2, if_pos (by omega)]

/-- C115. `zsl_vec_get_subset` stays within its buffers for every offset and length of type `size_t`, with wrap-around or without, if the two sizes together
are below the range of `size_t`. -/
theorem vec_get_subset_safe_any (v w : Vec R) (offset len : ℕ) (h : v.WF) (hw : w.WF) (hlen : len < SIZE_MOD) (hsz : v.sz + w.sz ≤ SIZE_MOD) :
    vecGetSubset v offset len w ≠ ub := by
  by_cases hs : offset + len < SIZE_MOD
  · exact (vec_get_subset_safe v w offset len h hw hs).ne_ub
  by_cases ho : v.sz ≤ offset
  · unfold vecGetSubset
    rw [if_pos ho]
    exact fun hh => by cases hh
  by_cases hin : offset + len - SIZE_MOD < v.sz
  · rw [vec_get_subset_wraps v w offset len (by omega) hlen hsz (by omega) hin]
    exact fun hh => by cases hh
  · omega

/-- The hypotheses are met: the last two elements of three, asked for with the largest length. The shorter request with the length 3, which is too large as
well, is clipped. -/
example (a b c x y : R) : vecGetSubset ⟨3, [a, b, c]⟩ 1 (SIZE_MOD - 1) ⟨2, [x, y]⟩ = ok (-EINVAL, ⟨2, [x, y]⟩) ∧
    vecGetSubset ⟨3, [a, b, c]⟩ 1 3 ⟨2, [x, y]⟩ = ok (0, ⟨2, [b, c]⟩) := by
  refine ⟨vec_get_subset_wraps _ _ 1 _ (by norm_num) (by norm_num [SIZE_MOD]) (by norm_num [SIZE_MOD]) (by norm_num [SIZE_MOD]) (by norm_num [SIZE_MOD]), ?_⟩
  have h1 : szAdd 1 3 = 4 := by norm_num [szAdd, SIZE_MOD]
  unfold vecGetSubset
  rw [h1]
  rfl

end Verif
