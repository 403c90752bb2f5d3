import Verif.Spec.Safe
import Verif.Lemmas.Matrices

/-! # Helper lemmas for the memory safety theorems -/

namespace Verif

open Out

variable {R : Type}

@[simp] theorem rd_sat {α : Type} {b : List α} {i : ℕ} {P : α → Prop} : (rd b i).sat P ↔ ∃ h : i < b.length, P b[i] := by
  by_cases h : i < b.length
  · simp [rd_lt h, h]
  · rw [rd_ge (by omega)]
    simp [h]

@[simp] theorem wr_sat {α : Type} {b : List α} {i : ℕ} {x : α} {P : List α → Prop} :
    (wr b i x).sat P ↔ i < b.length ∧ P (b.set i x) := by
  by_cases h : i < b.length
  · simp [wr_lt x h, h]
  · rw [wr_ge x (by omega)]
    simp [h]

theorem satp {α : Type} {P : α → Prop} {a : α} (h : P a) : (pure a : Out α).sat P := by
  simpa using h

theorem ite_sat {α : Type} {P : α → Prop} {c : Prop} [Decidable c] {a b : Out α} (h1 : c → a.sat P) (h2 : ¬c → b.sat P) :
    (if c then a else b).sat P := by
  split
  · exact h1 ‹_›
  · exact h2 ‹_›

/-- Loop rule with an invariant that does not mention the counter. -/
theorem forN_inv {σ : Type} {n : ℕ} {f : ℕ → σ → Out σ} {s : σ} (P : σ → Prop) (h0 : P s)
    (hs : ∀ i, i < n → ∀ t, P t → (f i t).sat P) : (forN n f s).sat P :=
  forN_sat (fun _ => P) h0 hs

theorem forRet_inv {σ ρ : Type} {n : ℕ} {f : ℕ → σ → Out (Ctl σ ρ)} {s : σ} (P : σ → Prop) (Q : ρ → Prop) (h0 : P s)
    (hs : ∀ i, i < n → ∀ t, P t → (f i t).sat fun c =>
      match c with
      | .next s => P s
      | .ret r => Q r) :
    (forRet n f s).sat fun c =>
      match c with
      | .next s => P s
      | .ret r => Q r :=
  forRet_sat (fun _ => P) Q h0 hs

theorem Vec.Like.refl (x : Vec R) : x.Like x := ⟨rfl, rfl⟩
theorem Vec.Like.trans {x y z : Vec R} (h : x.Like y) (h' : y.Like z) : x.Like z := ⟨h'.1.trans h.1, h'.2.trans h.2⟩
theorem Vec.Like.wf {x y : Vec R} (h : x.Like y) (hx : x.WF) : y.WF := by
  unfold Vec.WF at *
  rw [h.1, h.2]
  exact hx

theorem Mtx.Like.refl (x : Mtx R) : x.Like x := ⟨rfl, rfl, rfl⟩
theorem Mtx.Like.trans {x y z : Mtx R} (h : x.Like y) (h' : y.Like z) : x.Like z :=
  ⟨h'.1.trans h.1, h'.2.1.trans h.2.1, h'.2.2.trans h.2.2⟩
theorem Mtx.Like.wf {x y : Mtx R} (h : x.Like y) (hx : x.WF) : y.WF := by
  unfold Mtx.WF at *
  rw [h.1, h.2.1, h.2.2]
  exact hx

theorem Vec.wf_uninit (junk : ℕ → R) (n : ℕ) : (Vec.uninit junk n).WF := by
  simp [Vec.WF, Vec.uninit]

theorem Mtx.wf_uninit (junk : ℕ → R) (r c : ℕ) : (Mtx.uninit junk r c).WF := by
  simp [Mtx.WF, Mtx.uninit]

@[simp] theorem junkArr_length (junk : ℕ → R) (n : ℕ) : (junkArr junk n).length = n := by simp [junkArr]

/-- The shape of an uninitialised local. -/
@[simp] theorem Mtx.uninit_rows (junk : ℕ → R) (r c : ℕ) : (Mtx.uninit junk r c).rows = r := rfl
@[simp] theorem Mtx.uninit_cols (junk : ℕ → R) (r c : ℕ) : (Mtx.uninit junk r c).cols = c := rfl
@[simp] theorem Mtx.uninit_len (junk : ℕ → R) (r c : ℕ) : (Mtx.uninit junk r c).data.length = r * c := by simp [Mtx.uninit]
@[simp] theorem Vec.uninit_sz (junk : ℕ → R) (n : ℕ) : (Vec.uninit junk n).sz = n := rfl
@[simp] theorem Vec.uninit_len (junk : ℕ → R) (n : ℕ) : (Vec.uninit junk n).data.length = n := by simp [Vec.uninit]

theorem memcpyAt_safe {α : Type} {dst src : List α} {doff soff n : ℕ} (hd : doff + n ≤ dst.length) (hs : soff + n ≤ src.length) :
    (memcpyAt dst doff src soff n).sat fun d => d.length = dst.length := by
  refine forN_inv _ rfl fun i hi t ht => ?_
  simp
  omega

/-- A loop that rewrites cells below `n` in place. -/
theorem forN_cells {n : ℕ} {d : List R} (g : ℕ → R → R) (hn : n ≤ d.length) :
    (forN n (fun i d => do
      let a ← rd d i
      wr d i (g i a)) d).sat fun d' => d'.length = d.length := by
  refine forN_inv _ rfl fun i hi t ht => ?_
  simp
  omega

end Verif
