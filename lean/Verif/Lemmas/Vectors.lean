import Mathlib.Algebra.BigOperators.Fin
import Verif.Base.XR
import Verif.Model.Vectors

/-! # Helper lemmas about buffers and vectors -/

namespace Verif

open Out

section generic
variable {α : Type}

/-- A loop that writes `ys[i]` into cell `i`. -/
theorem forN_write {n : Nat} {f : Nat → List α → Out (List α)} {d : List α} (ys : List α)
    (hy : ys.length = n) (hn : n ≤ d.length)
    (hf : ∀ i (hi : i < n), ∀ t, t = ys.take i ++ d.drop i → f i t = wr t i (ys[i]'(by omega))) :
    forN n f d = ok (ys ++ d.drop n) := by
  have h : forN n f d = ok (ys.take n ++ d.drop n) := by
    refine forN_eq (fun i => ys.take i ++ d.drop i) (by simp) ?_
    intro i hi
    rw [hf i hi _ rfl, wr_lt _ (by simp; omega)]
    congr 1
    rw [List.set_append_right _ _ (by simp), List.length_take, Nat.min_eq_left (by omega),
      Nat.sub_self, List.drop_eq_getElem_cons (by omega : i < d.length), List.set_cons_zero,
      List.take_succ_eq_append_getElem (by omega : i < ys.length), List.append_assoc]
    rfl
  rw [h, ← hy, List.take_length]

theorem getElem?_take_append_drop_ge {ys d : List α} {i k : Nat} (hi : i ≤ ys.length)
    (hk : i ≤ k) : (ys.take i ++ d.drop i)[k]? = d[k]? := by
  rw [List.getElem?_append_right (by simp; omega), List.getElem?_drop]
  congr 1
  simp
  omega

theorem memcpyAt_eq {dst src : List α} {n soff : Nat} (hd : n ≤ dst.length)
    (hs : soff + n ≤ src.length) :
    memcpyAt dst 0 src soff n = ok ((src.drop soff).take n ++ dst.drop n) := by
  refine forN_write ((src.drop soff).take n) (by simp; omega) hd ?_
  intro i hi t _
  rw [rd_lt (by omega : soff + i < src.length)]
  simp

end generic

section inplace
variable {R : Type}

/-- `for i < n: d[i] = g (d[i])`. -/
theorem forN_map {n : Nat} {d : List R} (g : R → R) (hn : n ≤ d.length) :
    forN n (fun i d => do
      let a ← rd d i
      wr d i (g a)) d = ok ((d.take n).map g ++ d.drop n) := by
  refine forN_write ((d.take n).map g) (by simp; omega) hn ?_
  rintro i hi t rfl
  rw [rd_of (x := d[i])]
  · simp
  · rw [getElem?_take_append_drop_ge (by simp; omega) le_rfl]
    simp [show i < d.length by omega]

end inplace

/-! ### Real vectors -/

/-- `v` is a vector of the finite reals `x`. -/
def Vec.Is {n : Nat} (v : Vec XR) (x : Fin n → ℝ) : Prop :=
  v.sz = n ∧ ∀ i : Fin n, v.data[i.val]? = some (XR.fin (x i))

theorem Vec.Is.wf {n : Nat} {v : Vec XR} {x : Fin n → ℝ} (h : v.Is x) : v.WF := by
  unfold Vec.WF
  rw [h.1]
  rcases n with _ | n
  · simp
  · have := h.2 (Fin.last n)
    rw [List.getElem?_eq_some_iff] at this
    obtain ⟨h, _⟩ := this
    simpa using h

theorem Vec.Is.rd {n : Nat} {v : Vec XR} {x : Fin n → ℝ} (h : v.Is x) (i : Fin n) :
    rd v.data i = ok (XR.fin (x i)) := rd_of (h.2 i)

theorem Vec.Is.vals {n : Nat} {v : Vec XR} {x : Fin n → ℝ} (h : v.Is x) :
    v.vals = (List.ofFn x).map XR.fin := by
  apply List.ext_getElem?
  intro i
  by_cases hi : i < n
  · simp [Vec.vals, h.1, hi, h.2 ⟨i, hi⟩]
  · simp [Vec.vals, h.1, hi]

theorem Vec.is_of_append {n : Nat} {ys d : List XR} {x : Fin n → ℝ}
    (h : ys = (List.ofFn x).map XR.fin) : Vec.Is ⟨n, ys ++ d⟩ x := by
  refine ⟨rfl, fun i => ?_⟩
  subst h
  simp [List.getElem?_append_left]

/-- Every list of reals is such a vector. -/
theorem Vec.is_ofFn {n : Nat} (x : Fin n → ℝ) :
    Vec.Is ⟨n, (List.ofFn x).map XR.fin⟩ x := by
  simpa using Vec.is_of_append (d := []) (x := x) rfl

/-- Summation loops. -/
theorem forN_sum {n : Nat} {f : Nat → XR → Out XR} {a : ℝ} (x : Fin n → ℝ)
    (hf : ∀ i : Fin n, ∀ t : ℝ, f i (XR.fin t) = ok (XR.fin (t + x i))) :
    forN n f (XR.fin a) = ok (XR.fin (a + ∑ i, x i)) := by
  induction n with
  | zero => simp
  | succ n ih =>
    rw [forN_succ, ih (fun i => x i.castSucc) (fun i t => hf i.castSucc t), ok_bind,
      Fin.sum_univ_castSucc, ← add_assoc]
    exact hf (Fin.last n) _

end Verif
