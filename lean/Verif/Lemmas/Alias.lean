import Verif.Model.Alias
import Verif.Lemmas.Vectors
import Verif.Lemmas.Matrices

/-!
# Lemmas about calls whose arguments share storage
-/

set_option linter.unusedSectionVars false

namespace Verif

open Out

variable {R : Type} [CReal R]

/-- Two loops whose bodies correspond through `rel`, as long as the invariant `P` holds. -/
theorem forN_sim {σ τ : Type} {n : ℕ} {f : ℕ → τ → Out τ} {g : ℕ → σ → Out σ} (rel : τ → σ) (P : ℕ → τ → Prop) {t : τ} (h0 : P 0 t)
    (hs : ∀ i, i < n → ∀ t, P i t → g i (rel t) = (f i t >>= fun t' => ok (rel t')) ∧ ∀ t', f i t = ok t' → P (i + 1) t') :
    forN n g (rel t) = (forN n f t >>= fun t' => ok (rel t')) ∧ ∀ t', forN n f t = ok t' → P n t' := by
  induction n with
  | zero =>
    refine ⟨rfl, fun t' ht => ?_⟩
    cases ht
    exact h0
  | succ n ih =>
    obtain ⟨h1, h2⟩ := ih fun i hi => hs i (by omega)
    rw [forN_succ, forN_succ, h1]
    cases hf : forN n f t with
    | ub => exact ⟨rfl, fun t' ht => by cases ht⟩
    | ok t' =>
      simp only [ok_bind]
      exact hs n (by omega) t' (h2 t' hf)

/-- The same for loops with `return`; `relR` relates what is returned. -/
theorem forRet_sim {σ τ ρ υ : Type} {n : ℕ} {f : ℕ → τ → Out (Ctl τ υ)} {g : ℕ → σ → Out (Ctl σ ρ)} (rel : τ → σ) (relR : υ → ρ)
    (P : ℕ → τ → Prop) {t : τ} (h0 : P 0 t)
    (hs : ∀ i, i < n → ∀ t, P i t → g i (rel t) = (f i t >>= fun c => ok (match c with
        | .next t' => Ctl.next (rel t')
        | .ret r => Ctl.ret (relR r))) ∧ ∀ t', f i t = ok (.next t') → P (i + 1) t') :
    forRet n g (rel t) = (forRet n f t >>= fun c => ok (match c with
        | .next t' => Ctl.next (rel t')
        | .ret r => Ctl.ret (relR r))) ∧ ∀ t', forRet n f t = ok (.next t') → P n t' := by
  induction n with
  | zero =>
    refine ⟨rfl, fun t' ht => ?_⟩
    cases ht
    exact h0
  | succ n ih =>
    obtain ⟨h1, h2⟩ := ih fun i hi => hs i (by omega)
    rw [forRet, forRet, h1]
    cases hf : forRet n f t with
    | ub => exact ⟨rfl, fun t' ht => by cases ht⟩
    | ok c =>
      cases c with
      | next t' =>
        simp only [ok_bind]
        exact hs n (by omega) t' (h2 t' hf)
      | ret r => exact ⟨rfl, fun t' ht => by cases ht⟩

/-! ### Memories -/

theorem VMem.setData_self (mem : VMem R) (p : ℕ) : mem.setData p (mem p).data = mem := by
  unfold VMem.setData
  exact Function.update_eq_self _ _

theorem MMem.setData_self (mem : MMem R) (p : ℕ) : mem.setData p (mem p).data = mem := by
  unfold MMem.setData
  exact Function.update_eq_self _ _

@[simp] theorem VMem.setData_at (mem : VMem R) (p : ℕ) (d : List R) : mem.setData p d p = { mem p with data := d } := by
  simp [VMem.setData]

@[simp] theorem MMem.setData_at (mem : MMem R) (p : ℕ) (d : List R) : mem.setData p d p = { mem p with data := d } := by
  simp [MMem.setData]

theorem VMem.setData_ne (mem : VMem R) {p q : ℕ} (d : List R) (h : q ≠ p) : mem.setData p d q = mem q := by
  simp [VMem.setData, h]

theorem MMem.setData_ne (mem : MMem R) {p q : ℕ} (d : List R) (h : q ≠ p) : mem.setData p d q = mem q := by
  simp [MMem.setData, h]

@[simp] theorem VMem.setData_setData (mem : VMem R) (p : ℕ) (d e : List R) : (mem.setData p d).setData p e = mem.setData p e := by
  simp [VMem.setData]

@[simp] theorem MMem.setData_setData (mem : MMem R) (p : ℕ) (d e : List R) : (mem.setData p d).setData p e = mem.setData p e := by
  simp [MMem.setData]

@[simp] theorem VMem.setData_sz (mem : VMem R) (p q : ℕ) (d : List R) : (mem.setData p d q).sz = (mem q).sz := by
  by_cases h : q = p
  · subst h; simp
  · rw [VMem.setData_ne _ _ h]

@[simp] theorem MMem.setData_rows (mem : MMem R) (p q : ℕ) (d : List R) : (mem.setData p d q).rows = (mem q).rows := by
  by_cases h : q = p
  · subst h; simp
  · rw [MMem.setData_ne _ _ h]

@[simp] theorem MMem.setData_cols (mem : MMem R) (p q : ℕ) (d : List R) : (mem.setData p d q).cols = (mem q).cols := by
  by_cases h : q = p
  · subst h; simp
  · rw [MMem.setData_ne _ _ h]

/-- `d` agrees with `d0` from cell `i` on: the state of a buffer that is being filled from the front. -/
def SameFrom (d0 : List R) (i : ℕ) (d : List R) : Prop := ∀ j, i ≤ j → d[j]? = d0[j]?

omit [CReal R] in
theorem SameFrom.wr {d0 d d' : List R} {i : ℕ} {x : R} (h : SameFrom d0 i d) (hw : wr d i x = ok d') : SameFrom d0 (i + 1) d' := by
  unfold Verif.wr at hw
  by_cases hi : i < d.length
  · rw [if_pos hi] at hw
    cases hw
    intro j hj
    rw [List.getElem?_set_ne (by omega)]
    exact h j (by omega)
  · rw [if_neg hi] at hw
    cases hw

theorem rd_setDataV {mem : VMem R} {x v : ℕ} {i : ℕ} {d : List R} (h : SameFrom (mem x).data i d) :
    rd (mem.setData x d v).data i = rd (mem v).data i := by
  by_cases hv : v = x
  · subst hv
    rw [VMem.setData_at]
    unfold rd
    rw [h i le_rfl]
  · rw [VMem.setData_ne _ _ hv]

theorem rd_setDataM {mem : MMem R} {x v : ℕ} {i : ℕ} {d : List R} (h : SameFrom (mem x).data i d) :
    rd (mem.setData x d v).data i = rd (mem v).data i := by
  by_cases hv : v = x
  · subst hv
    rw [MMem.setData_at]
    unfold rd
    rw [h i le_rfl]
  · rw [MMem.setData_ne _ _ hv]

/-- The loop `x->data[i] = op(v->data[i], w->data[i])` gives the same for all pointers. -/
theorem cellsMem_eq (op : R → R → R) (mem : VMem R) (v w x n : ℕ) :
    forN n (fun i (mem : VMem R) => do
      let a ← rd (mem v).data i
      let b ← rd (mem w).data i
      let d ← wr (mem x).data i (op a b)
      return mem.setData x d) mem =
    (forN n (fun i d => do
      let a ← rd (mem v).data i
      let b ← rd (mem w).data i
      wr d i (op a b)) (mem x).data) >>= fun d => ok (mem.setData x d) := by
  have := (forN_sim (n := n) (f := fun i d => do
      let a ← rd (mem v).data i
      let b ← rd (mem w).data i
      wr d i (op a b)) (g := fun i (mem : VMem R) => do
      let a ← rd (mem v).data i
      let b ← rd (mem w).data i
      let d ← wr (mem x).data i (op a b)
      return mem.setData x d) (fun d => mem.setData x d) (fun i d => SameFrom (mem x).data i d) (t := (mem x).data) (fun j _ => rfl) ?_).1
  · rw [VMem.setData_self] at this
    exact this
  · intro i _ d hd
    constructor
    · simp only [rd_setDataV hd, VMem.setData_at, VMem.setData_setData]
      cases rd (mem v).data i with
      | ub => rfl
      | ok a =>
        cases rd (mem w).data i with
        | ub => rfl
        | ok b => rfl
    · intro d' h
      cases hv : rd (mem v).data i with
      | ub => simp [hv] at h
      | ok a =>
        cases hw : rd (mem w).data i with
        | ub => simp [hv, hw] at h
        | ok b =>
          simp only [hv, hw, ok_bind] at h
          exact hd.wr h

/-- Copying: the same for all pointers. -/
theorem vecCopyMem_eq (mem : VMem R) (p q : ℕ) :
    vecCopyMem mem p q = (vecCopy (mem p) (mem q) >>= fun r => ok (r.1, Function.update mem p r.2)) := by
  unfold vecCopyMem vecCopy memcpyAt
  have := (forN_sim (n := (mem q).sz) (f := fun i d => do
      let x ← rd (mem q).data (0 + i)
      wr d (0 + i) x) (g := fun i (mem : VMem R) => do
      let x ← rd (mem q).data i
      let d ← wr (mem p).data i x
      return mem.setData p d) (fun d => mem.setData p d) (fun i d => SameFrom (mem p).data i d) (t := (mem p).data) (fun j _ => rfl) ?_).1
  · rw [VMem.setData_self] at this
    rw [this]
    cases forN (mem q).sz (fun i d => do
      let x ← rd (mem q).data (0 + i)
      wr d (0 + i) x) (mem p).data with
    | ub => rfl
    | ok d =>
      simp only [ok_bind, pure_eq, VMem.setData_sz, VMem.setData_at]
      simp [VMem.setData]
  · intro i _ d hd
    simp only [Nat.zero_add]
    constructor
    · simp only [rd_setDataV hd, VMem.setData_at, VMem.setData_setData]
      cases rd (mem q).data i with
      | ub => rfl
      | ok a => rfl
    · intro d' h
      cases hv : rd (mem q).data i with
      | ub => simp [hv] at h
      | ok a =>
        simp only [hv, ok_bind] at h
        exact hd.wr h

end Verif
