import Mathlib.Data.List.Basic
import Mathlib.Tactic.Common

/-!
# Outcomes, buffers and loops

How the C code's control flow is expressed. Nothing here models a particular function of /repo;
it is the semantics of the C fragment the model is written in.
-/

namespace Verif

/-- Result of running a piece of C code: it finishes with a value, or it runs into undefined
behaviour (out-of-bounds access, signed overflow, bad float-to-int cast, ...). -/
inductive Out (α : Type) where
  | ok (a : α)
  | ub
deriving DecidableEq, Repr

namespace Out

/-- Sequencing: undefined behaviour absorbs everything that follows. -/
def bind {α β : Type} (x : Out α) (f : α → Out β) : Out β :=
  match x with
  | ok a => f a
  | ub => ub

instance : Monad Out where
  pure := Out.ok
  bind := Out.bind

@[simp] theorem ok_bind {α β : Type} (a : α) (f : α → Out β) : (ok a >>= f) = f a := rfl
@[simp] theorem ub_bind {α β : Type} (f : α → Out β) : ((ub : Out α) >>= f) = ub := rfl
@[simp] theorem pure_eq {α : Type} (a : α) : (pure a : Out α) = ok a := rfl

theorem bind_assoc' {α β γ : Type} (x : Out α) (f : α → Out β) (g : β → Out γ) :
    ((x >>= f) >>= g) = (x >>= fun a => f a >>= g) := by
  cases x <;> rfl

/-- `x.sat P`: the code finishes without undefined behaviour and its result satisfies `P`. -/
def sat {α : Type} (x : Out α) (P : α → Prop) : Prop := ∃ a, x = ok a ∧ P a

@[simp] theorem sat_ok {α : Type} (a : α) (P : α → Prop) : (ok a).sat P ↔ P a := by
  constructor
  · rintro ⟨b, hb, h⟩
    cases hb
    exact h
  · exact fun h => ⟨a, rfl, h⟩

@[simp] theorem not_sat_ub {α : Type} (P : α → Prop) : ¬ (ub : Out α).sat P := by
  rintro ⟨b, hb, _⟩
  cases hb

@[simp] theorem sat_bind {α β : Type} (x : Out α) (f : α → Out β) (P : β → Prop) :
    (x >>= f).sat P ↔ x.sat (fun a => (f a).sat P) := by
  cases x <;> simp

theorem sat.mono {α : Type} {x : Out α} {P Q : α → Prop} (h : x.sat P) (hPQ : ∀ a, P a → Q a) :
    x.sat Q := by
  obtain ⟨a, rfl, ha⟩ := h
  exact ⟨a, rfl, hPQ a ha⟩

theorem sat.bind {α β : Type} {x : Out α} {f : α → Out β} {P : α → Prop} {Q : β → Prop}
    (h : x.sat P) (hf : ∀ a, P a → (f a).sat Q) : (x >>= f).sat Q := by
  obtain ⟨a, rfl, ha⟩ := h
  exact hf a ha

theorem sat_of_eq {α : Type} {x : Out α} {a : α} {P : α → Prop} (h : x = ok a) (hP : P a) :
    x.sat P := ⟨a, h, hP⟩

theorem sat_eq {α : Type} {x : Out α} {a : α} : x.sat (fun b => b = a) ↔ x = ok a := by
  constructor
  · rintro ⟨b, h, rfl⟩
    exact h
  · exact fun h => ⟨a, h, rfl⟩

theorem sat.and {α : Type} {x : Out α} {P Q : α → Prop} (h : x.sat P) (h' : x.sat Q) :
    x.sat (fun a => P a ∧ Q a) := by
  obtain ⟨a, rfl, ha⟩ := h
  exact ⟨a, rfl, ha, by simpa using h'⟩

end Out

open Out

/-- `b[i]` as an rvalue: undefined behaviour outside the buffer. -/
def rd {α : Type} (b : List α) (i : Nat) : Out α :=
  match b[i]? with
  | some x => ok x
  | none => ub

/-- `b[i] = x;`: undefined behaviour outside the buffer. -/
def wr {α : Type} (b : List α) (i : Nat) (x : α) : Out (List α) :=
  if i < b.length then ok (b.set i x) else ub

theorem rd_of {α : Type} {b : List α} {i : Nat} {x : α} (h : b[i]? = some x) : rd b i = ok x := by
  simp [rd, h]

theorem rd_ok_iff {α : Type} {b : List α} {i : Nat} {x : α} : rd b i = ok x ↔ b[i]? = some x := by
  unfold rd
  cases h : b[i]? <;> simp

theorem rd_lt {α : Type} {b : List α} {i : Nat} (h : i < b.length) : rd b i = ok b[i] := by
  simp [rd, h]

theorem rd_ge {α : Type} {b : List α} {i : Nat} (h : b.length ≤ i) : rd b i = ub := by
  simp [rd, h]

theorem wr_lt {α : Type} {b : List α} {i : Nat} (x : α) (h : i < b.length) :
    wr b i x = ok (b.set i x) := by
  simp [wr, h]

theorem wr_ge {α : Type} {b : List α} {i : Nat} (x : α) (h : b.length ≤ i) : wr b i x = ub := by
  simp [wr, h]

/-- `for (i = 0; i < n; i++) body`, with the variables the body assigns as the state `σ`. -/
def forN {σ : Type} (n : Nat) (f : Nat → σ → Out σ) (s : σ) : Out σ :=
  match n with
  | 0 => ok s
  | n + 1 => forN n f s >>= f n

@[simp] theorem forN_zero {σ : Type} (f : Nat → σ → Out σ) (s : σ) : forN 0 f s = ok s := rfl

theorem forN_succ {σ : Type} (n : Nat) (f : Nat → σ → Out σ) (s : σ) :
    forN (n + 1) f s = (forN n f s >>= f n) := rfl

/-- Loop invariant rule. -/
theorem forN_sat {σ : Type} {n : Nat} {f : Nat → σ → Out σ} {s : σ} (P : Nat → σ → Prop)
    (h0 : P 0 s) (hs : ∀ i, i < n → ∀ t, P i t → (f i t).sat (P (i + 1))) :
    (forN n f s).sat (P n) := by
  induction n with
  | zero => simpa using h0
  | succ n ih =>
    rw [forN_succ]
    exact (ih fun i hi => hs i (by omega)).bind fun t ht => hs n (by omega) t ht

/-- A loop whose body never fails is the iteration of a function. -/
theorem forN_eq {σ : Type} {n : Nat} {f : Nat → σ → Out σ} {s : σ} (g : Nat → σ)
    (h0 : g 0 = s) (hs : ∀ i, i < n → f i (g i) = ok (g (i + 1))) : forN n f s = ok (g n) := by
  rw [← Out.sat_eq]
  refine forN_sat (fun i t => t = g i) h0.symm ?_
  rintro i hi t rfl
  exact Out.sat_eq.2 (hs i hi)

/-- Loop bodies that agree give the same loop. -/
theorem forN_congr {σ : Type} {n : Nat} {f g : Nat → σ → Out σ} {s : σ}
    (h : ∀ i, i < n → ∀ t, f i t = g i t) : forN n f s = forN n g s := by
  induction n with
  | zero => rfl
  | succ n ih =>
    rw [forN_succ, forN_succ, ih fun i hi => h i (by omega)]
    cases forN n g s with
    | ok t => exact h n (by omega) t
    | ub => rfl

/-- What a loop body with a `return` in it does: go on to the next iteration, or return. -/
inductive Ctl (σ ρ : Type) where
  | next (s : σ)
  | ret (r : ρ)
deriving DecidableEq, Repr

/-- `for (i = 0; i < n; i++) body` where the body may `return`. -/
def forRet {σ ρ : Type} (n : Nat) (f : Nat → σ → Out (Ctl σ ρ)) (s : σ) : Out (Ctl σ ρ) :=
  match n with
  | 0 => ok (.next s)
  | n + 1 => do
    match ← forRet n f s with
    | .next s => f n s
    | .ret r => ok (.ret r)

@[simp] theorem forRet_zero {σ ρ : Type} (f : Nat → σ → Out (Ctl σ ρ)) (s : σ) :
    forRet 0 f s = ok (.next s) := rfl

/-- Loop invariant rule for loops with `return`: `P` is the invariant, `Q` what is known on return. -/
theorem forRet_sat {σ ρ : Type} {n : Nat} {f : Nat → σ → Out (Ctl σ ρ)} {s : σ}
    (P : Nat → σ → Prop) (Q : ρ → Prop) (h0 : P 0 s)
    (hs : ∀ i, i < n → ∀ t, P i t → (f i t).sat fun c =>
      match c with
      | .next s => P (i + 1) s
      | .ret r => Q r) :
    (forRet n f s).sat fun c =>
      match c with
      | .next s => P n s
      | .ret r => Q r := by
  induction n with
  | zero => simpa [forRet] using h0
  | succ n ih =>
    rw [forRet]
    refine (ih fun i hi => hs i (by omega)).bind ?_
    rintro (t | r) h
    · exact hs n (by omega) t h
    · simpa using h

/-- A search loop without state: it returns `r` as soon as `p` holds. -/
theorem forRet_unit {ρ : Type} {n : Nat} {f : Nat → Unit → Out (Ctl Unit ρ)} (p : Nat → Bool) (r : ρ)
    (hf : ∀ i, i < n → f i () = ok (if p i then .ret r else .next ())) :
    forRet n f () = ok (if (List.range n).any p then .ret r else .next ()) := by
  induction n with
  | zero => rfl
  | succ n ih =>
    rw [forRet, ih fun i hi => hf i (by omega), List.range_succ, List.any_append]
    by_cases h : (List.range n).any p = true
    · simp [h]
    · simp only [h]
      simp [hf n (by omega)]

/-! ### Loops over buffers -/

/-- The fill loop `for i < n: d[i] = y i` gives `y 0, …, y (n-1)` followed by the old rest. -/
theorem forN_fill {α : Type} {n : Nat} {f : Nat → List α → Out (List α)} {d : List α} (y : Nat → α)
    (hn : n ≤ d.length)
    (hf : ∀ i, i < n → f i ((List.range i).map y ++ d.drop i) =
      wr ((List.range i).map y ++ d.drop i) i (y i)) :
    forN n f d = ok ((List.range n).map y ++ d.drop n) := by
  refine forN_eq (fun i => (List.range i).map y ++ d.drop i) (by simp) ?_
  intro i hi
  rw [hf i hi, wr_lt _ (by simp; omega)]
  congr 1
  rw [List.range_succ, List.map_append, List.set_append_right _ _ (by simp)]
  rw [List.length_map, List.length_range, Nat.sub_self,
    List.drop_eq_getElem_cons (by omega : i < d.length), List.set_cons_zero]
  simp

end Verif
