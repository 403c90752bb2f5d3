import Verif.Model.AliasMat
import Verif.Props.Alias4
import Verif.Props.Vectors2
import Verif.Lemmas.VecReal

/-!
# Calls whose arguments share storage: sums and means of vectors, subsets
-/

set_option linter.unusedSectionVars false

namespace Verif

open Out

variable {R : Type} [CReal R] {n : ℕ}

/-! ### Subsets -/

/-- C145, C01. `zsl_vec_get_subset(v, offset, len, vsub)` with two different vectors. -/
theorem vec_get_subset_separate (mem : VMem R) (v offset len vsub : ℕ) (h : v ≠ vsub) :
    vecGetSubsetMem mem v offset len vsub =
      (vecGetSubset (mem v) offset len (mem vsub) >>= fun r => ok (r.1, Function.update mem vsub r.2)) := by
  unfold vecGetSubsetMem vecGetSubset
  by_cases h1 : offset ≥ (mem v).sz
  · rw [if_pos h1, if_pos h1]
    simp
  rw [if_neg h1, if_neg h1]
  dsimp only
  generalize (if szAdd offset len ≥ (mem v).sz then (mem v).sz - offset else len) = l
  by_cases h2 : (mem vsub).sz < l
  · rw [if_pos h2, if_pos h2]
    simp
  rw [if_neg h2, if_neg h2, if_neg (fun hh => h hh.1)]
  generalize (if (mem vsub).sz > l then l else (mem vsub).sz) = s
  unfold memcpyAt
  have := (forN_sim (n := l) (f := fun i d => do
      let x ← rd (mem v).data (offset + i)
      wr d (0 + i) x) (g := fun i (mem : VMem R) => do
      let x ← rd (mem v).data (offset + i)
      let d ← wr (mem vsub).data i x
      return mem.setData vsub d) (fun d => Function.update mem vsub ⟨s, d⟩) (fun _ _ => True) (t := (mem vsub).data) trivial ?_).1
  · rw [this]
    simp only [bind_assoc', ok_bind, pure_eq]
  · intro i _ d _
    refine ⟨?_, fun _ _ => trivial⟩
    simp only [Function.update_self, Function.update_of_ne h, Nat.zero_add, bind_assoc', ok_bind, pure_eq, VMem.setData,
      Function.update_idem]

/-- C145, C01. `zsl_vec_get_subset(v, offset, len, v)`: with `l` the number of elements asked for or, if less, the number present from
`offset` on, the call is defined exactly when the ranges do not overlap or are equal, and then stores the subset in `v`. Removing
the first of three or more elements in place is not defined. -/
theorem vec_get_subset_in_place (mem : VMem R) (v offset len : ℕ) (hv : (mem v).WF) (ho : offset < (mem v).sz)
    (hl : offset + len < SIZE_MOD) :
    (offset = 0 ∨ min len ((mem v).sz - offset) ≤ offset →
      ∃ y : Vec R, vecGetSubsetMem mem v offset len v = ok (0, Function.update mem v y) ∧
        y.vals = ((mem v).vals.drop offset).take len ∧ y.data.drop y.sz = (mem v).data.drop y.sz) ∧
    (¬ (offset = 0 ∨ min len ((mem v).sz - offset) ≤ offset) → vecGetSubsetMem mem v offset len v = ub) := by
  unfold Vec.WF at hv
  have hL : (if szAdd offset len ≥ (mem v).sz then (mem v).sz - offset else len) = min len ((mem v).sz - offset) := by
    rw [szAdd_lt hl]
    split_ifs <;> omega
  unfold vecGetSubsetMem
  rw [if_neg (by omega)]
  dsimp only
  rw [hL]
  generalize hl' : min len ((mem v).sz - offset) = l
  have hl1 : l ≤ (mem v).sz - offset := by omega
  rw [if_neg (by omega)]
  constructor
  · intro h
    rw [if_neg (by omega)]
    refine ⟨⟨l, ((mem v).data.drop offset).take l ++ (mem v).data.drop l⟩, ?_, ?_, ?_⟩
    · have hs : (if (mem v).sz > l then l else (mem v).sz) = l := by split_ifs <;> omega
      rw [hs]
      have key := (forN_sim (n := l) (f := fun i d => do
          let x ← rd (mem v).data (offset + i)
          wr d i x) (g := fun i (mem : VMem R) => do
          let x ← rd (mem v).data (offset + i)
          let d ← wr (mem v).data i x
          return mem.setData v d) (fun d => Function.update mem v ⟨l, d⟩) (fun i d => SameFrom (mem v).data i d)
          (t := (mem v).data) (fun _ _ => rfl) ?_).1
      · have hw : forN l (fun i d => do
            let x ← rd (mem v).data (offset + i)
            wr d i x) (mem v).data = ok (((mem v).data.drop offset).take l ++ (mem v).data.drop l) := by
          refine forN_write (((mem v).data.drop offset).take l) (by simp; omega) (by omega) ?_
          rintro i hi t rfl
          rw [rd_lt (by omega)]
          simp
        rw [key, hw]
        rfl
      · intro i hi d hd
        constructor
        · have : rd d (offset + i) = rd (mem v).data (offset + i) := by
            unfold rd
            rw [hd (offset + i) (by omega)]
          simp only [Function.update_self, this, bind_assoc', pure_eq, VMem.setData, Function.update_idem]
        · intro d' hd'
          cases hr : rd (mem v).data (offset + i) with
          | ub => simp [hr] at hd'
          | ok a =>
            simp only [hr, ok_bind] at hd'
            exact hd.wr hd'
    · have hlen : (((mem v).data.drop offset).take l).length = l := by simp; omega
      simp only [Vec.vals]
      rw [List.take_append_of_le_length (by omega), List.take_of_length_le (by omega), List.drop_take, List.take_take]
      congr 1
      omega
    · dsimp only
      rw [List.drop_append_of_le_length (by simp; omega), List.drop_of_length_le (by simp), List.nil_append]
  · intro h
    rw [if_pos ⟨rfl, by omega, by omega⟩]

/-! ### Sums and means of vectors -/

/-- The running content of the output: adding the output to itself doubles it. -/
def sumFold (x : ℕ → Fin n → ℝ) (w : ℕ) (y : Fin n → ℝ) (v : List ℕ) : Fin n → ℝ :=
  v.foldl (fun acc p => acc + if p = w then acc else x p) y

theorem vecSumMem_check (mem : VMem XR) (v : List ℕ) (m : ℕ) (h : ∀ p ∈ v, (mem p).sz = m) :
    forRet v.length (fun i (_ : Unit) => do
      let vi ← rd v i
      if m ≠ (mem vi).sz then return Ctl.ret (-EINVAL) else return Ctl.next ()) () = ok (Ctl.next () : Ctl Unit Int) := by
  have : ∀ k, k ≤ v.length → forRet k (fun i (_ : Unit) => do
      let vi ← rd v i
      if m ≠ (mem vi).sz then return Ctl.ret (-EINVAL) else return Ctl.next ()) () = ok (Ctl.next () : Ctl Unit Int) := by
    intro k hk
    induction k with
    | zero => rfl
    | succ k ih =>
      rw [forRet, ih (by omega)]
      simp only [ok_bind]
      rw [rd_lt (by omega), ok_bind, if_neg (by simp [h _ (List.getElem_mem _)])]
      rfl
  exact this _ le_rfl

theorem vecSum_pass (mem : VMem XR) (w p : ℕ) (y z : Fin n → ℝ) (hw : (mem w).Is y) (hp : (mem p).Is z) :
    ∃ b : Vec XR, forN (mem w).sz (fun j (mem : VMem XR) => do
        let a ← rd (mem w).data j
        let b ← rd (mem p).data j
        let d ← wr (mem w).data j (a + b)
        return mem.setData w d) mem = ok (Function.update mem w b) ∧ b.Is (y + z) := by
  rw [cellsMem_eq (fun a b => a + b)]
  have hlw := hw.wf
  have hlp := hp.wf
  unfold Vec.WF at hlw hlp
  have e1 := hw.1
  have e2 := hp.1
  refine ⟨⟨(mem w).sz, (List.ofFn fun i => XR.fin (y i + z i)) ++ (mem w).data.drop n⟩, ?_, hw.1, fun i => ?_⟩
  · rw [e1, forN_write (List.ofFn fun i => XR.fin (y i + z i)) (by simp) (by omega)]
    · simp [VMem.setData, e1]
    · rintro i hi t rfl
      rw [rd_of (hw.2 ⟨i, hi⟩), rd_of (hp.2 ⟨i, hi⟩)]
      simp [XR.fin_add]
  · dsimp only
    rw [List.getElem?_append_left (by simp)]
    simp

/-- C145, C04. `zsl_vec_sum(v, n, w)` for every memory of real vectors and every array of pointers, in which `w` may occur any number of
times: each pass over `w` itself doubles what has been collected so far. Nothing but `w` changes. -/
theorem vec_sum_any_pointers (mem : VMem XR) (v : List ℕ) (w : ℕ) (x : ℕ → Fin n → ℝ) (hv : v ≠ [])
    (hx : ∀ p ∈ v, (mem p).Is (x p)) (y : Fin n → ℝ) (hw : (mem w).Is y) :
    ∃ z : Vec XR, vecSumMem mem v v.length w = ok (0, Function.update mem w z) ∧ z.Is (sumFold x w y v) := by
  have hlen : v.length ≠ 0 := by simpa using hv
  unfold vecSumMem
  rw [if_neg hlen, rd_lt (by omega), ok_bind]
  dsimp only
  have hsz : ∀ p ∈ v, (mem p).sz = n := fun p hp => (hx p hp).1
  rw [hsz _ (List.getElem_mem _), vecSumMem_check mem v n hsz, ok_bind]
  dsimp only
  have hself : Function.update mem w { mem w with sz := n } = mem := by
    conv_rhs => rw [← Function.update_eq_self w mem]
    rw [← hw.1]
  rw [hself]
  have key : ∀ k, k ≤ v.length → ∃ z : Vec XR, forN k (fun i (mem : VMem XR) => do
      let vi ← rd v i
      forN (mem w).sz (fun j (mem : VMem XR) => do
        let a ← rd (mem w).data j
        let b ← rd (mem vi).data j
        let d ← wr (mem w).data j (a + b)
        return mem.setData w d) mem) mem = ok (Function.update mem w z) ∧ z.Is (sumFold x w y (v.take k)) := by
    intro k hk
    induction k with
    | zero => exact ⟨mem w, by rw [Function.update_eq_self]; rfl, by simpa [sumFold] using hw⟩
    | succ k ih =>
      obtain ⟨z, h1, h2⟩ := ih (by omega)
      rw [forN_succ, h1, ok_bind, rd_lt (by omega : k < v.length), ok_bind]
      have hmem : v[k] ∈ v := List.getElem_mem _
      obtain ⟨b, hb, hb'⟩ := vecSum_pass (Function.update mem w z) w v[k] _ (if v[k] = w then sumFold x w y (v.take k) else x v[k])
        (by rw [Function.update_self]; exact h2) (by
          split_ifs with h
          · rw [h, Function.update_self]
            exact h2
          · rw [Function.update_of_ne h]
            exact hx _ hmem)
      refine ⟨b, ?_, ?_⟩
      · rw [hb, Function.update_idem]
      · rw [List.take_succ_eq_append_getElem (by omega : k < v.length)]
        unfold sumFold
        rw [List.foldl_append]
        exact hb'
  obtain ⟨z, h1, h2⟩ := key _ le_rfl
  rw [List.take_length] at h2
  exact ⟨z, by rw [h1]; rfl, h2⟩

theorem sumFold_not_mem (x : ℕ → Fin n → ℝ) (w : ℕ) (v : List ℕ) (hv : w ∉ v) (y : Fin n → ℝ) :
    sumFold x w y v = y + (v.map x).sum := by
  induction v generalizing y with
  | nil => simp [sumFold]
  | cons p v ih =>
    have h1 : p ≠ w := fun h => hv (by simp [h])
    have := ih (fun h => hv (by simp [h])) (y + x p)
    unfold sumFold at this ⊢
    rw [List.foldl_cons, if_neg h1, this, List.map_cons, List.sum_cons, add_assoc]

/-- C145, C04. The output is none of the summed vectors: it receives its previous content plus all of them. The output is one of them:
everything before it, and itself, is counted twice more. The two agree (`previous content plus sum of all`) exactly when the vectors
in front of it add up to zero, e.g. when it is the first. -/
theorem vec_sum_in_place (mem : VMem XR) (as bs : List ℕ) (w : ℕ) (x : ℕ → Fin n → ℝ) (hx : ∀ p ∈ as ++ w :: bs, (mem p).Is (x p))
    (ha : w ∉ as) (hb : w ∉ bs) :
    ∃ z : Vec XR, vecSumMem mem (as ++ w :: bs) (as ++ w :: bs).length w = ok (0, Function.update mem w z) ∧
      z.Is (2 • (x w + (as.map x).sum) + (bs.map x).sum) ∧
      (z.Is (x w + ((as ++ w :: bs).map x).sum) ↔ (as.map x).sum = 0) := by
  obtain ⟨z, h1, h2⟩ := vec_sum_any_pointers mem (as ++ w :: bs) w x (by simp) hx (x w) (hx w (by simp))
  have he : sumFold x w (x w) (as ++ w :: bs) = 2 • (x w + (as.map x).sum) + (bs.map x).sum := by
    have e1 := sumFold_not_mem x w as ha (x w)
    have e2 := sumFold_not_mem x w bs hb (2 • (x w + (as.map x).sum))
    rw [← e2, ← e1]
    unfold sumFold
    rw [List.foldl_append, List.foldl_cons, if_pos rfl, two_smul]
  rw [he] at h2
  refine ⟨z, h1, h2, ?_⟩
  have huniq : ∀ u, z.Is u ↔ u = 2 • (x w + (as.map x).sum) + (bs.map x).sum := by
    intro u
    constructor
    · intro hu
      funext i
      have a := hu.2 i
      rw [h2.2 i] at a
      simp only [Option.some.injEq, XR.fin.injEq] at a
      exact a.symm
    · rintro rfl
      exact h2
  rw [huniq]
  simp only [List.map_append, List.map_cons, List.sum_append, List.sum_cons, two_smul]
  constructor
  · intro h
    have : (as.map x).sum = 0 + 0 := by
      funext i
      have := congrFun h i
      simp only [Pi.add_apply] at this
      simp only [Pi.add_apply, Pi.zero_apply]
      linarith
    simpa using this
  · intro h
    rw [h]
    funext i
    simp only [Pi.add_apply, Pi.zero_apply]
    ring

/-- C145, C04. `zsl_vec_mean(v, n, m)` where `m` is the first of the averaged vectors: the first counts twice. -/
theorem vec_mean_in_place (mem : VMem XR) (bs : List ℕ) (m : ℕ) (x : ℕ → Fin n → ℝ) (hx : ∀ p ∈ m :: bs, (mem p).Is (x p))
    (hb : m ∉ bs) :
    ∃ z : Vec XR, vecMeanMem mem (m :: bs) (m :: bs).length m = ok (0, Function.update mem m z) ∧
      z.Is (fun i => (2 * x m i + (bs.map x).sum i) / (bs.length + 1 : ℕ)) := by
  obtain ⟨z, h1, h2, -⟩ := vec_sum_in_place mem [] bs m x hx (by simp) hb
  simp only [List.nil_append, List.map_nil, List.sum_nil, add_zero] at h1 h2
  unfold vecMeanMem
  rw [show rd (m :: bs) 0 = ok m from rfl, ok_bind, if_neg (by simp), h1]
  simp only [ok_bind, ne_eq, not_true_eq_false, if_false]
  unfold onObj
  simp only [Function.update_self]
  rw [vec_scalar_mult_correct _ _ h2.wf]
  simp only [ok_bind, pure_eq, Function.update_idem]
  refine ⟨_, rfl, h2.1, fun i => ?_⟩
  have hz := h2.2 i
  have hl := h2.wf
  unfold Vec.WF at hl
  have hi : i.val < z.sz := by rw [h2.1]; exact i.2
  dsimp only
  rw [List.getElem?_append_left (by simp [Vec.vals]; omega)]
  simp only [Vec.vals, List.getElem?_map, List.getElem?_take, hi, if_true, hz, Option.map_some, List.length_cons]
  rw [XR.lit_eq, XR.ofNat_eq, XR.fin_div (by positivity), XR.fin_mul]
  congr 2
  simp
  ring

/-- Non-vacuity: `zsl_vec_sum({a, b}, 2, b)` with a = (1), b = (10) stores 22 in b. -/
example (mem : VMem XR) (h0 : (mem 0).Is (![1] : Fin 1 → ℝ)) (h1 : (mem 1).Is (![10] : Fin 1 → ℝ)) :
    ∃ z : Vec XR, vecSumMem mem [0, 1] 2 1 = ok (0, Function.update mem 1 z) ∧ z.Is (![22] : Fin 1 → ℝ) := by
  obtain ⟨z, a, b, -⟩ := vec_sum_in_place mem [0] [] 1 (fun p => if p = 0 then ![1] else ![10]) (by
    intro p hp
    simp at hp
    rcases hp with rfl | rfl
    · simpa using h0
    · simpa using h1) (by simp) (by simp)
  refine ⟨z, a, ?_⟩
  convert b using 1
  funext i
  fin_cases i
  norm_num

/-- Non-vacuity: taking the last two of four elements in place is defined, dropping the first of four is not. -/
example (mem : VMem XR) (h : mem 0 = ⟨4, [lit 1, lit 2, lit 3, lit 4]⟩) :
    (∃ y : Vec XR, vecGetSubsetMem mem 0 2 2 0 = ok (0, Function.update mem 0 y) ∧ y.vals = [lit 3, lit 4]) ∧
    vecGetSubsetMem mem 0 1 3 0 = ub := by
  have hw : (mem 0).WF := by rw [h]; simp [Vec.WF]
  constructor
  · obtain ⟨y, h1, h2, -⟩ := (vec_get_subset_in_place mem 0 2 2 hw (by rw [h]; simp) (by simp [SIZE_MOD])).1 (by rw [h]; simp)
    exact ⟨y, h1, by rw [h2, h]; rfl⟩
  · exact (vec_get_subset_in_place mem 0 1 3 hw (by rw [h]; simp) (by simp [SIZE_MOD])).2 (by rw [h]; simp)

end Verif
