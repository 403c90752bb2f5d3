import Verif.Model.Threads
import Verif.Props.Interp2

/-!
# C144: calls of `zsl_interp_cubic_arr` by several threads
-/

namespace Verif

open Out

section
variable {R : Type} [CReal R]

/-- The schedule does not disturb the calls: all threads that have finished have the result of the undisturbed call, and if every call on its own is
defined, so is the whole. -/
def CubicUndisturbed (c : ℕ → CubicArgs R) (v : CubicStatics) (s : List ℕ) : Prop :=
  (∀ v' p', cubicRun c v (fun _ => .start) s = ok (v', p') → ∀ i rc y, p' i = .done rc y → interpCubicArr (c i).xyc (c i).n (c i).x (c i).y = ok (rc, y)) ∧
    ((∀ i, interpCubicArr (c i).xyc (c i).n (c i).x (c i).y ≠ ub) → cubicRun c v (fun _ => .start) s ≠ ub)

/-- A run of a single thread. -/
def cubicAlone (c : CubicArgs R) : ℕ → CubicStatics → CubicPc R → Out (CubicStatics × CubicPc R)
  | 0, v, p => ok (v, p)
  | k + 1, v, p => do
    let (v, p) ← cubicStep c v p
    cubicAlone c k v p

/-- C144: a call that is not interrupted takes at most nine steps, and its result is that of the sequential model, whatever the static variables contain. -/
theorem cubic_alone (c : CubicArgs R) (hc : c.n ≤ c.xyc.length) (v : CubicStatics) :
    (∃ v' rc y, interpCubicArr c.xyc c.n c.x c.y = ok (rc, y) ∧ cubicAlone c 9 v .start = ok (v', .done rc y)) ∨
      (interpCubicArr c.xyc c.n c.x c.y = ub ∧ cubicAlone c 9 v .start = ub) := by
  have st : ∀ k v p, cubicAlone c (k + 1) v p = (do
      let (v, p) ← cubicStep c v p
      cubicAlone c k v p) := fun _ _ _ => rfl
  have dn : ∀ k v rc y, cubicAlone c k v (.done rc y) = ok (v, .done rc y) := by
    intro k
    induction k with
    | zero => intros; rfl
    | succ k ih => intro v rc y; exact ih v rc y
  have z : cubicAlone c 9 v .start = cubicAlone c 6 ⟨0, 1⟩ (if c.n < 3 then .done (-EINVAL) c.y else .testLo) := by
    rw [st, cubicStep, ok_bind]
    simp only
    rw [st, cubicStep, ok_bind]
    simp only
    rw [st, cubicStep]
    by_cases h : c.n < 3
    · rw [if_pos h, if_pos h, ok_bind]
    · rw [if_neg h, if_neg h, ok_bind]
  unfold interpCubicArr
  by_cases h : c.n < 3
  · rw [if_pos h, z, if_pos h, dn]
    exact Or.inl ⟨_, _, _, rfl, rfl⟩
  rw [if_neg h, z, if_neg h]
  have r : ∀ i, i < c.n → ∃ p, rd c.xyc i = ok p := fun i hi => ⟨c.xyc[i]'(by omega), by simp [rd, List.getElem?_eq_getElem (show i < c.xyc.length by omega)]⟩
  obtain ⟨p0, h0⟩ := r 0 (by omega)
  obtain ⟨p1, h1⟩ := r 1 (by omega)
  rw [h0, ok_bind, h1, ok_bind]
  have ev : ∀ k v klo khi, (∃ v' rc y, (do
        let l ← rd c.xyc klo
        let h ← rd c.xyc khi
        let hh := h.x - l.x
        if CReal.eq hh (lit 0) then return (-EINVAL, c.y)
        else
          let a := (h.x - c.x) / hh
          let b := (c.x - l.x) / hh
          return (0, a * l.y + b * h.y + ((a * a * a - a) * l.y2 + (b * b * b - b) * h.y2) * (hh * hh) / lit 6) : Out (Int × R)) = ok (rc, y) ∧
        cubicAlone c (k + 1) v (.eval klo khi) = ok (v', .done rc y)) ∨ ((do
        let l ← rd c.xyc klo
        let h ← rd c.xyc khi
        let hh := h.x - l.x
        if CReal.eq hh (lit 0) then return (-EINVAL, c.y)
        else
          let a := (h.x - c.x) / hh
          let b := (c.x - l.x) / hh
          return (0, a * l.y + b * h.y + ((a * a * a - a) * l.y2 + (b * b * b - b) * h.y2) * (hh * hh) / lit 6) : Out (Int × R)) = ub ∧
        cubicAlone c (k + 1) v (.eval klo khi) = ub) := by
    intro k v klo khi
    rw [st, cubicStep]
    cases rd c.xyc klo with
    | ub => exact Or.inr ⟨rfl, rfl⟩
    | ok l =>
      rw [ok_bind, ok_bind]
      cases rd c.xyc khi with
      | ub => exact Or.inr ⟨rfl, rfl⟩
      | ok h =>
        rw [ok_bind, ok_bind]
        simp only
        by_cases he : CReal.eq (h.x - l.x) (lit 0) = true
        · rw [if_pos he, if_pos he]
          exact Or.inl ⟨_, _, _, rfl, dn _ _ _ _⟩
        · rw [if_neg he, if_neg he]
          exact Or.inl ⟨_, _, _, rfl, dn _ _ _ _⟩
  have se : ∀ k, (∃ v' rc y, (do
        let (klo, khi) ← cubicSearch c.n c.xyc c.x 0 (c.n - 1)
        let l ← rd c.xyc klo
        let h ← rd c.xyc khi
        let hh := h.x - l.x
        if CReal.eq hh (lit 0) then return (-EINVAL, c.y)
        else
          let a := (h.x - c.x) / hh
          let b := (c.x - l.x) / hh
          return (0, a * l.y + b * h.y + ((a * a * a - a) * l.y2 + (b * b * b - b) * h.y2) * (hh * hh) / lit 6) : Out (Int × R)) = ok (rc, y) ∧
        cubicAlone c (k + 4) ⟨0, 1⟩ .search = ok (v', .done rc y)) ∨ ((do
        let (klo, khi) ← cubicSearch c.n c.xyc c.x 0 (c.n - 1)
        let l ← rd c.xyc klo
        let h ← rd c.xyc khi
        let hh := h.x - l.x
        if CReal.eq hh (lit 0) then return (-EINVAL, c.y)
        else
          let a := (h.x - c.x) / hh
          let b := (c.x - l.x) / hh
          return (0, a * l.y + b * h.y + ((a * a * a - a) * l.y2 + (b * b * b - b) * h.y2) * (hh * hh) / lit 6) : Out (Int × R)) = ub ∧
        cubicAlone c (k + 4) ⟨0, 1⟩ .search = ub) := by
    intro k
    rw [st, cubicStep]
    cases cubicSearch c.n c.xyc c.x 0 (c.n - 1) with
    | ub => exact Or.inr ⟨rfl, rfl⟩
    | ok q => exact ev k _ q.1 q.2
  rw [st, cubicStep, h0, ok_bind]
  by_cases c0 : CReal.le p0.x c.x = true
  · rw [if_pos c0]
    simp only [pure_eq, ok_bind]
    rw [st, cubicStep, h1, ok_bind]
    by_cases c1 : CReal.gt p1.x c.x = true
    · rw [if_pos c1, if_pos (by simp [c0, c1])]
      exact ev 1 _ 0 1
    · rw [if_neg c1, if_neg (by simp [c1])]
      exact se 0
  · rw [if_neg c0, if_neg (by simp [c0])]
    exact se 1

theorem cubicRun_append (c : ℕ → CubicArgs R) (s s' : List ℕ) : ∀ v p, cubicRun c v p (s ++ s') = (do
    let (v, p) ← cubicRun c v p s
    cubicRun c v p s') := by
  induction s with
  | nil => intro v p; rfl
  | cons i s ih =>
    intro v p
    simp only [List.cons_append, cubicRun]
    cases cubicStep (c i) v (p i) with
    | ub => rfl
    | ok r => exact ih r.1 _

theorem cubicRun_block (c : ℕ → CubicArgs R) (i k : ℕ) : ∀ v p, cubicRun c v p (List.replicate k i) = (do
    let (v, q) ← cubicAlone (c i) k v (p i)
    return (v, Function.update p i q)) := by
  induction k with
  | zero =>
    intro v p
    simp only [List.replicate_zero, cubicRun, cubicAlone, ok_bind, Function.update_eq_self]
    rfl
  | succ k ih =>
    intro v p
    simp only [List.replicate_succ, cubicRun, cubicAlone]
    cases cubicStep (c i) v (p i) with
    | ub => rfl
    | ok r =>
      simp only [ok_bind, ih, Function.update_self, Function.update_idem]

/-- C144, partial: calls that are not interrupted by one another do not disturb each other, in whatever order they are made, by whatever thread and with
whatever tables. Missing: calls which are interrupted, for which it is false (`cubic_interleaved_wrong`, `cubic_interleaved_overread`). -/
theorem cubic_threads_partial (c : ℕ → CubicArgs R) (hc : ∀ i, (c i).n ≤ (c i).xyc.length) (v : CubicStatics) (is : List ℕ) :
    CubicUndisturbed c v (is.flatMap fun i => List.replicate 9 i) := by
  have dn : ∀ (a : CubicArgs R) k v rc y, cubicAlone a k v (.done rc y) = ok (v, .done rc y) := by
    intro a k
    induction k with
    | zero => intros; rfl
    | succ k ih => intro v rc y; exact ih v rc y
  let Ok : (ℕ → CubicPc R) → Prop := fun p => ∀ i, p i = .start ∨ ∃ rc y, p i = .done rc y ∧ interpCubicArr (c i).xyc (c i).n (c i).x (c i).y = ok (rc, y)
  have key : ∀ (is : List ℕ) (v) (p : ℕ → CubicPc R), Ok p →
      (∃ v' p', cubicRun c v p (is.flatMap fun i => List.replicate 9 i) = ok (v', p') ∧ Ok p') ∨
        (cubicRun c v p (is.flatMap fun i => List.replicate 9 i) = ub ∧ ∃ i, interpCubicArr (c i).xyc (c i).n (c i).x (c i).y = ub) := by
    intro is
    induction is with
    | nil => intro v p h; exact Or.inl ⟨_, _, rfl, h⟩
    | cons i is ih =>
      intro v p h
      rw [List.flatMap_cons, cubicRun_append, cubicRun_block]
      rcases h i with hi | ⟨rc, y, hi, hr⟩
      · rw [hi]
        rcases cubic_alone (c i) (hc i) v with ⟨v', rc, y, h1, h2⟩ | ⟨h1, h2⟩
        · rw [h2, ok_bind]
          simp only [pure_eq, ok_bind]
          refine ih _ _ ?_
          intro j
          by_cases hj : j = i
          · subst hj
            exact Or.inr ⟨rc, y, Function.update_self .., h1⟩
          · rw [Function.update_of_ne hj]
            exact h j
        · rw [h2]
          exact Or.inr ⟨rfl, i, h1⟩
      · rw [hi, dn, ok_bind]
        simp only [pure_eq, ok_bind]
        rw [← hi, Function.update_eq_self]
        exact ih _ _ h
  have k := key is v (fun _ => .start) fun _ => Or.inl rfl
  refine ⟨?_, ?_⟩
  · intro v' p' e i rc y hi
    rcases k with ⟨v1, p1, e1, h1⟩ | ⟨e1, -⟩
    · rw [e1] at e
      cases e
      rcases h1 i with h | ⟨rc', y', h, hr⟩
      · rw [h] at hi; cases hi
      · rw [h] at hi; cases hi; exact hr
    · rw [e1] at e; cases e
  · intro h e
    rcases k with ⟨v1, p1, e1, h1⟩ | ⟨-, i, hi⟩
    · rw [e1] at e; cases e
    · exact h i hi

end

/-! ## Interrupted calls -/

/-- A table with four points. -/
noncomputable def tab4 : List (XYC XR) :=
  [⟨XR.fin 0, XR.fin 0, XR.fin 0⟩, ⟨XR.fin 1, XR.fin 1, XR.fin 0⟩, ⟨XR.fin 2, XR.fin 0, XR.fin 0⟩, ⟨XR.fin 3, XR.fin 10, XR.fin 0⟩]

/-- Thread 0 asks for the value at one half, thread 1 for the value at five halves, in the same table. -/
noncomputable def twoCalls (i : ℕ) : CubicArgs XR := ⟨tab4, 4, if i = 0 then XR.fin (1 / 2) else XR.fin (5 / 2), XR.fin 0⟩

/-- Thread 0 makes five steps, then thread 1 its whole call, then thread 0 the rest. -/
def preempt : List ℕ := List.replicate 5 0 ++ List.replicate 9 1 ++ List.replicate 4 0

theorem tab4_half (v : CubicStatics) : cubicAlone (twoCalls 0) 5 v .start = ok (⟨0, 1⟩, .useLo) := by
  have h : (2⁻¹ : ℝ) < 1 := by norm_num
  simp [cubicAlone, cubicStep, twoCalls, tab4, rd, h]

theorem tab4_search : cubicSearch 4 tab4 (XR.fin (5 / 2)) 0 3 = ok (2, 3) := by
  have h1 : ¬ (5 / 2 : ℝ) < 1 := by norm_num
  have h2 : ¬ (5 / 2 : ℝ) < 2 := by norm_num
  simp [cubicSearch, tab4, rd, h1, h2]

theorem tab4_other (v : CubicStatics) : cubicAlone (twoCalls 1) 9 v .start = ok (⟨2, 3⟩, .done 0 (XR.fin 5)) := by
  have h0 : (0 : ℝ) ≤ 5 / 2 := by norm_num
  have h1 : ¬ (5 / 2 : ℝ) < 1 := by norm_num
  have e := tab4_search
  have h3 : ¬ (3 - 2 : ℝ) = 0 := by norm_num
  unfold tab4 at e
  simp [cubicAlone, cubicStep, twoCalls, tab4, rd, h0, h1, e, h3]
  norm_num [XR.fin_div (show (1 : ℝ) ≠ 0 by norm_num), XR.fin_div (show (6 : ℝ) ≠ 0 by norm_num)]

/-- C144, negation: two threads interpolate in the same table. Thread 0 is interrupted after it has found that its argument lies between the first two points, and goes
on with the interval of thread 1. It reports success and returns -15 instead of one half. -/
theorem cubic_interleaved_wrong (v : CubicStatics) :
    interpCubicArr tab4 4 (XR.fin (1 / 2)) (XR.fin 0) = ok (0, XR.fin (1 / 2)) ∧
      ∃ v' p', cubicRun twoCalls v (fun _ => .start) preempt = ok (v', p') ∧ p' 0 = .done 0 (XR.fin (-15)) ∧ p' 1 = .done 0 (XR.fin 5) := by
  constructor
  · have h : (2⁻¹ : ℝ) < 1 := by norm_num
    simp [interpCubicArr, tab4, rd, h]
    norm_num [XR.fin_div (show (1 : ℝ) ≠ 0 by norm_num), XR.fin_div (show (6 : ℝ) ≠ 0 by norm_num)]
  · have e : cubicAlone (twoCalls 0) 4 ⟨2, 3⟩ .useLo = ok (⟨2, 3⟩, .done 0 (XR.fin (-15))) := by
      have h3 : ¬ (3 - 2 : ℝ) = 0 := by norm_num
      simp [cubicAlone, cubicStep, twoCalls, tab4, rd, h3]
      norm_num [XR.fin_div (show (1 : ℝ) ≠ 0 by norm_num), XR.fin_div (show (6 : ℝ) ≠ 0 by norm_num)]
    refine ⟨⟨2, 3⟩, Function.update (Function.update (fun _ => .start) 0 (.done 0 (XR.fin (-15)))) 1 (.done 0 (XR.fin 5)), ?_, ?_, ?_⟩
    · rw [preempt, cubicRun_append, cubicRun_append, cubicRun_block, tab4_half, ok_bind]
      simp only [pure_eq, ok_bind]
      rw [cubicRun_block, Function.update_of_ne (by norm_num), tab4_other, ok_bind]
      simp only [pure_eq, ok_bind]
      rw [cubicRun_block, Function.update_of_ne (by norm_num), Function.update_self, e, ok_bind]
      simp only [pure_eq]
      rw [Function.update_comm (by norm_num), Function.update_idem]
    · rw [Function.update_of_ne (by norm_num), Function.update_self]
    · rw [Function.update_self]

/-- C144: hence the claim is false, even for two threads with one table. -/
theorem cubic_threads_interfere (v : CubicStatics) : ¬ CubicUndisturbed twoCalls v preempt := by
  intro h
  obtain ⟨h1, v', p', h2, h3, -⟩ := cubic_interleaved_wrong v
  have h4 := h.1 v' p' h2 0 _ _ h3
  rw [show interpCubicArr (twoCalls 0).xyc (twoCalls 0).n (twoCalls 0).x (twoCalls 0).y = _ from h1] at h4
  simp at h4
  norm_num at h4

/-- The same, with the first three points for thread 0. -/
noncomputable def twoTables (i : ℕ) : CubicArgs XR := if i = 0 then ⟨tab4.take 3, 3, XR.fin (1 / 2), XR.fin 0⟩ else twoCalls i

/-- C144, negation: if the table of thread 0 is shorter, it reads past its end. -/
theorem cubic_interleaved_overread (v : CubicStatics) : ¬ CubicUndisturbed twoTables v preempt := by
  have h : (2⁻¹ : ℝ) < 1 := by norm_num
  have a1 : cubicAlone (twoTables 0) 5 v .start = ok (⟨0, 1⟩, .useLo) := by
    simp [cubicAlone, cubicStep, twoTables, tab4, rd, h]
  have a2 : cubicAlone (twoTables 0) 4 ⟨2, 3⟩ .useLo = ub := by
    simp [cubicAlone, cubicStep, twoTables, tab4, rd]
  intro hu
  refine hu.2 ?_ ?_
  · intro i
    by_cases hi : i = 0
    · subst hi
      simp [interpCubicArr, twoTables, tab4, rd, h]
    · have h0 : (0 : ℝ) ≤ 5 / 2 := by norm_num
      have h1 : ¬ (5 / 2 : ℝ) < 1 := by norm_num
      have e := tab4_search
      have h3 : ¬ (3 - 2 : ℝ) = 0 := by norm_num
      unfold tab4 at e
      simp [interpCubicArr, twoTables, twoCalls, hi, tab4, rd, h1, e, h3]
  · rw [preempt, cubicRun_append, cubicRun_append, cubicRun_block, a1, ok_bind]
    simp only [pure_eq, ok_bind]
    rw [cubicRun_block, Function.update_of_ne (by norm_num), show twoTables 1 = twoCalls 1 from rfl, tab4_other, ok_bind]
    simp only [pure_eq, ok_bind]
    rw [cubicRun_block, Function.update_of_ne (by norm_num), Function.update_self, a2]
    rfl

example : (∀ i, (twoCalls i).n ≤ (twoCalls i).xyc.length) ∧ ∀ i, (twoTables i).n ≤ (twoTables i).xyc.length := by
  refine ⟨fun i => by simp [twoCalls, tab4], fun i => ?_⟩
  unfold twoTables
  split_ifs <;> simp [twoCalls, tab4]

end Verif
