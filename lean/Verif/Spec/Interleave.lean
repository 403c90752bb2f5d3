import Verif.Model.Drivers

/-!
# Independence of instances, and restarting

What the owner of one instance is entitled to expect when other instances of the same algorithm exist.
-/

namespace Verif

open Out

variable {T S A O : Type}

/-- The part of a history that belongs to instance `i`. -/
def proj {α : Type} (i : ℕ) (h : List (ℕ × α)) : List α := (h.filter fun x => x.1 = i).map Prod.snd

/-- The instances do not notice each other: after the interleaved history, every instance has the memory, and its owner has seen the results,
which the calls of this instance alone give in a system without the others; and the history has undefined behaviour only if the calls of one
of the instances alone have. -/
def Independent (D : FusDrv T S A O) (t : T) (s : ℕ → S) (h : List (ℕ × FusCall S A)) : Prop :=
  (∀ t' s' o, D.run t s h = ok (t', s', o) → ∀ i, ∃ ti, D.alone t (s i) (proj i h) = ok (ti, s' i, proj i o)) ∧
    (D.run t s h = ub → ∃ i, D.alone t (s i) (proj i h) = ub)

/-- All instances are initialised with the same frequency `f` (an `init` with `0` is refused and does no harm). -/
def OneRate (f : ℕ) (h : List (ℕ × FusCall S A)) : Prop := ∀ i g, (i, FusCall.init g) ∈ h → g = f ∨ g = 0

/-- No instance is fed before its own `init`. -/
def InitFirst (f : ℕ) (h : List (ℕ × FusCall S A)) : Prop :=
  ∀ h₁ i x h₂, h = h₁ ++ (i, FusCall.feed x) :: h₂ → (i, FusCall.init f) ∈ h₁

/-- The driver can be restarted: when its owner, after any calls `h`, puts back the memory `s₀` and calls `init` again, the calls that follow
have the results which they have after power-up (`t₀`). -/
def Restarts (D : FusDrv T S A O) (t₀ : T) (s₀ : S) (f : ℕ) (h h' : List (FusCall S A)) : Prop :=
  ∀ t s o t' s' o', D.alone t₀ s₀ h = ok (t, s, o) → D.alone t₀ s₀ (.init f :: h') = ok (t', s', o') →
    D.alone t₀ s₀ (h ++ .set s₀ :: .init f :: h') = ok (t', s', o ++ .set :: o')

end Verif
