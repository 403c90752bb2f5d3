import Verif.Spec.Interleave
import Verif.Props.Eigen1
import Verif.Props.Kalman3

/-!
# C142, C143: several instances of a fusion filter; restarting
-/

namespace Verif

open Quaternion Matrix Out

section
variable {T S A O : Type}

@[simp] theorem proj_nil {α : Type} (i : ℕ) : proj i ([] : List (ℕ × α)) = [] := rfl

@[simp] theorem proj_self {α : Type} (i : ℕ) (c : α) (h : List (ℕ × α)) : proj i ((i, c) :: h) = c :: proj i h := by simp [proj]

theorem proj_ne {α : Type} {i j : ℕ} (hij : j ≠ i) (c : α) (h : List (ℕ × α)) : proj i ((j, c) :: h) = proj i h := by simp [proj, hij]

/-- A general form of independence: a relation between the statics of the interleaved run and those of each instance, which the calls keep and
under which a call gives both the same. -/
theorem independent_of (D : FusDrv T S A O) (P : List (ℕ × FusCall S A) → T → (ℕ → T) → Prop)
    (step : ∀ i c h t ti (s : S), P ((i, c) :: h) t ti →
      (D.call t s c = ub ∧ D.call (ti i) s c = ub) ∨
        ∃ t' t'' s' o, D.call t s c = ok (t', s', o) ∧ D.call (ti i) s c = ok (t'', s', o) ∧ P h t' (Function.update ti i t''))
    (h : List (ℕ × FusCall S A)) : ∀ (t : T) (ti : ℕ → T) (s : ℕ → S), P h t ti →
      (∀ t' s' o, D.run t s h = ok (t', s', o) → ∀ i, ∃ t'', D.alone (ti i) (s i) (proj i h) = ok (t'', s' i, proj i o)) ∧
        (D.run t s h = ub → ∃ i, D.alone (ti i) (s i) (proj i h) = ub) := by
  induction h with
  | nil =>
    intro t ti s _
    refine ⟨?_, ?_⟩
    · intro t' s' o e i
      simp only [FusDrv.run] at e
      cases e
      exact ⟨_, rfl⟩
    · intro e
      simp [FusDrv.run] at e
  | cons ic h ih =>
    obtain ⟨i, c⟩ := ic
    intro t ti s hP
    rcases step i c h t ti (s i) hP with ⟨h1, h2⟩ | ⟨t1, t2, s1, o1, h1, h2, h3⟩
    · refine ⟨?_, ?_⟩
      · intro t' s' o e
        simp only [FusDrv.run, h1] at e
        cases e
      · intro _
        refine ⟨i, ?_⟩
        rw [proj_self, FusDrv.alone, h2]
        rfl
    · obtain ⟨g1, g2⟩ := ih t1 (Function.update ti i t2) (Function.update s i s1) h3
      have al : ∀ j, D.alone (ti j) (s j) (proj j ((i, c) :: h)) =
          if j = i then (do
            let (t, s, os) ← D.alone (Function.update ti i t2 j) (Function.update s i s1 j) (proj j h)
            return (t, s, o1 :: os)) else D.alone (Function.update ti i t2 j) (Function.update s i s1 j) (proj j h) := by
        intro j
        by_cases hj : j = i
        · subst hj
          rw [if_pos rfl, proj_self, FusDrv.alone, h2, ok_bind, Function.update_self, Function.update_self]
        · rw [if_neg hj, proj_ne (Ne.symm hj), Function.update_of_ne hj, Function.update_of_ne hj]
      refine ⟨?_, ?_⟩
      · intro t' s' o e j
        rw [FusDrv.run, h1, ok_bind] at e
        simp only at e
        cases hr : D.run t1 (Function.update s i s1) h with
        | ub => rw [hr] at e; cases e
        | ok r =>
          obtain ⟨rt, rs, ro⟩ := r
          rw [hr, ok_bind] at e
          cases e
          obtain ⟨t'', h4⟩ := g1 _ _ _ hr j
          refine ⟨t'', ?_⟩
          rw [al j, h4]
          by_cases hj : j = i
          · subst hj
            rw [if_pos rfl, ok_bind, proj_self]
            rfl
          · rw [if_neg hj, proj_ne (Ne.symm hj)]
      · intro e
        rw [FusDrv.run, h1, ok_bind] at e
        simp only at e
        cases hr : D.run t1 (Function.update s i s1) h with
        | ok r =>
          obtain ⟨rt, rs, ro⟩ := r
          rw [hr, ok_bind] at e
          cases e
        | ub =>
          obtain ⟨j, h4⟩ := g2 hr
          refine ⟨j, ?_⟩
          rw [al j, h4]
          by_cases hj : j = i
          · rw [if_pos hj]; rfl
          · rw [if_neg hj]

theorem initFirst_cons {f : ℕ} {i : ℕ} {c : FusCall S A} {h : List (ℕ × FusCall S A)} {st : ℕ → Prop}
    (hi : ∀ h₁ j x h₂, (i, c) :: h = h₁ ++ (j, FusCall.feed x) :: h₂ → st j ∨ (j, FusCall.init f) ∈ h₁) :
    ∀ h₁ j x h₂, h = h₁ ++ (j, FusCall.feed x) :: h₂ → (st j ∨ (i, c) = (j, FusCall.init f)) ∨ (j, FusCall.init f) ∈ h₁ := by
  intro h₁ j x h₂ e
  rcases hi ((i, c) :: h₁) j x h₂ (by rw [e]; rfl) with h | h
  · exact Or.inl (Or.inl h)
  · rcases List.mem_cons.1 h with h | h
    · exact Or.inl (Or.inr h.symm)
    · exact Or.inr h

/-- A driver whose only static is the frequency, which only `init` writes. -/
structure RateOnly (D : FusDrv ℕ S A O) : Prop where
  init : D.init = fusInit
  feed : ∀ f s x, D.feed f s x = ub ∨ ∃ s' o, D.feed f s x = ok (f, s', o)

theorem RateOnly.independent {D : FusDrv ℕ S A O} (hD : RateOnly D) {f : ℕ} (hf : f ≠ 0) (t : ℕ) (s : ℕ → S) (h : List (ℕ × FusCall S A))
    (h1 : OneRate f h) (h2 : InitFirst f h) : Independent D t s h := by
  refine independent_of D (fun h t ti => OneRate f h ∧ (∀ h₁ j x h₂, h = h₁ ++ (j, FusCall.feed x) :: h₂ → (ti j = f) ∨ (j, FusCall.init f) ∈ h₁) ∧
    ∀ j, ti j = f → t = f) ?_ h t (fun _ => t) s ⟨h1, fun h₁ j x h₂ e => Or.inr (h2 h₁ j x h₂ e), fun _ e => e⟩
  rintro i c h t ti s ⟨k1, k2, k3⟩
  have r1 : OneRate f h := fun j g m => k1 j g (List.mem_cons_of_mem _ m)
  have r2 := initFirst_cons k2
  cases c with
  | init g =>
    right
    simp only [FusDrv.call, hD.init]
    rcases k1 i g List.mem_cons_self with rfl | rfl
    · have e : ∀ t, fusInit g t = (0, g) := fun t => by unfold fusInit; rw [if_neg (by omega)]
      refine ⟨_, g, _, _, rfl, ?_, r1, ?_, ?_⟩
      · rw [e, e]
      · intro h₁ j x h₂ m
        by_cases hj : j = i
        · exact Or.inl (by rw [hj, Function.update_self])
        · rw [Function.update_of_ne hj]
          rcases r2 h₁ j x h₂ m with (h | h) | h
          · exact Or.inl h
          · exact absurd (Prod.mk.inj h).1.symm hj
          · exact Or.inr h
      · intro j _
        rw [e]
    · have e : ∀ t, fusInit 0 t = (-EINVAL, t) := fun t => by unfold fusInit; rw [if_pos (le_refl 0)]
      refine ⟨_, ti i, _, _, rfl, ?_, r1, ?_, ?_⟩
      · rw [e, e]
      · intro h₁ j x h₂ m
        rw [Function.update_eq_self]
        rcases r2 h₁ j x h₂ m with (h | h) | h
        · exact Or.inl h
        · exact absurd (FusCall.init.inj (Prod.mk.inj h).2).symm hf
        · exact Or.inr h
      · rw [Function.update_eq_self, e]
        exact k3
  | feed x =>
    have hti : ti i = f := by
      rcases k2 [] i x h rfl with h | h
      · exact h
      · cases h
    have ht := k3 i hti
    simp only [FusDrv.call]
    rw [ht, hti]
    rcases hD.feed f s x with e | ⟨s', o, e⟩
    · left
      rw [e]
      exact ⟨rfl, rfl⟩
    · right
      rw [e, ok_bind]
      refine ⟨f, f, s', _, rfl, rfl, r1, ?_, fun _ _ => rfl⟩
      intro h₁ j x' h₂ m
      by_cases hj : j = i
      · exact Or.inl (by rw [hj, Function.update_self])
      · rw [Function.update_of_ne hj]
        rcases r2 h₁ j x' h₂ m with (h | h) | h
        · exact Or.inl h
        · cases h
        · exact Or.inr h
  | set s' =>
    right
    refine ⟨_, _, _, _, rfl, rfl, r1, ?_, ?_⟩
    · intro h₁ j x' h₂ m
      rw [Function.update_eq_self]
      rcases r2 h₁ j x' h₂ m with (h | h) | h
      · exact Or.inl h
      · cases h
      · exact Or.inr h
    · rw [Function.update_eq_self]
      exact k3

theorem alone_append (D : FusDrv T S A O) (h h' : List (FusCall S A)) : ∀ (t : T) (s : S), D.alone t s (h ++ h') = (do
    let (t, s, o) ← D.alone t s h
    let (t, s, o') ← D.alone t s h'
    return (t, s, o ++ o')) := by
  induction h with
  | nil =>
    intro t s
    simp only [FusDrv.alone, List.nil_append, ok_bind]
    cases D.alone t s h' <;> rfl
  | cons c h ih =>
    intro t s
    simp only [FusDrv.alone, List.cons_append]
    cases D.call t s c with
    | ub => rfl
    | ok r =>
      obtain ⟨t, s, o⟩ := r
      simp only [ok_bind, ih]
      cases D.alone t s h with
      | ub => rfl
      | ok r =>
        obtain ⟨t, s, o⟩ := r
        simp only [ok_bind, pure_eq]
        cases D.alone t s h' <;> rfl

theorem RateOnly.restarts {D : FusDrv ℕ S A O} (hD : RateOnly D) {f : ℕ} (hf : f ≠ 0) (t₀ : ℕ) (s₀ : S) (h h' : List (FusCall S A)) :
    Restarts D t₀ s₀ f h h' := by
  intro t s o t' s' o' e1 e2
  have e : ∀ t, fusInit f t = (0, f) := fun t => by unfold fusInit; rw [if_neg (by omega)]
  rw [alone_append, e1, ok_bind]
  simp only [FusDrv.alone, FusDrv.call, hD.init, e, ok_bind] at e2 ⊢
  rw [e2]
  rfl

end

section
variable {R : Type} [CReal R]

theorem mahn_rateOnly : RateOnly (mahnDrv (R := R)) := by
  refine ⟨rfl, ?_⟩
  rintro f ⟨c, q⟩ x
  simp only [mahnDrv]
  cases fusMahnFeed x.junk f x.incl x.s c q with
  | ub => exact Or.inl rfl
  | ok r => exact Or.inr ⟨_, _, rfl⟩

theorem madg_rateOnly : RateOnly (madgDrv (R := R)) := by
  refine ⟨rfl, ?_⟩
  rintro f ⟨c, q⟩ x
  simp only [madgDrv]
  cases fusMadgFeed x.junk f x.incl c x.s q with
  | ub => exact Or.inl rfl
  | ok r => exact Or.inr ⟨_, _, rfl⟩

theorem comp_rateOnly : RateOnly (compDrv (R := R)) := by
  refine ⟨rfl, ?_⟩
  rintro f ⟨c, q⟩ x
  simp only [compDrv]
  cases fusCompFeed x.junk f c x.s q with
  | ub => exact Or.inl rfl
  | ok r => exact Or.inr ⟨_, _, rfl⟩

theorem saam_rateOnly : RateOnly (saamDrv (R := R)) := by
  refine ⟨rfl, ?_⟩
  rintro f q x
  simp only [saamDrv]
  cases fusSaamFeed x.junk x.s q with
  | ub => exact Or.inl rfl
  | ok r => exact Or.inr ⟨_, _, rfl⟩

/-- C142 for the Mahony filter, partial: any number of instances, interleaved in any way, are independent if they all use the same frequency and
none is fed before its `init`. Missing: different frequencies, for which it is false (`mahn_instances_interfere`). -/
theorem mahn_instances_partial {f : ℕ} (hf : f ≠ 0) (t : ℕ) (s : ℕ → MahnCfg R × Quat R) (h : List (ℕ × FusCall (MahnCfg R × Quat R) (FeedArgs R)))
    (h1 : OneRate f h) (h2 : InitFirst f h) : Independent mahnDrv t s h := mahn_rateOnly.independent hf t s h h1 h2

/-- C142 for the Madgwick filter, partial in the same way (`madg_instances_interfere`). -/
theorem madg_instances_partial {f : ℕ} (hf : f ≠ 0) (t : ℕ) (s : ℕ → R × Quat R) (h : List (ℕ × FusCall (R × Quat R) (FeedArgs R)))
    (h1 : OneRate f h) (h2 : InitFirst f h) : Independent madgDrv t s h := madg_rateOnly.independent hf t s h h1 h2

/-- C142 for the complementary filter, partial in the same way (`comp_instances_interfere`). -/
theorem comp_instances_partial {f : ℕ} (hf : f ≠ 0) (t : ℕ) (s : ℕ → R × Quat R) (h : List (ℕ × FusCall (R × Quat R) (FeedArgs R)))
    (h1 : OneRate f h) (h2 : InitFirst f h) : Independent compDrv t s h := comp_rateOnly.independent hf t s h h1 h2

/-- C142 for SAAM, which does not use the frequency: instances are always independent. -/
theorem saam_instances (t : ℕ) (s : ℕ → Quat R) (h : List (ℕ × FusCall (Quat R) (FeedArgs R))) : Independent saamDrv t s h := by
  refine independent_of saamDrv (fun _ _ _ => True) ?_ h t (fun _ => t) s trivial
  rintro i c h t ti s -
  cases c with
  | init g =>
    right
    simp only [FusDrv.call, saamDrv]
    refine ⟨_, (fusInit g (ti i)).2, _, _, rfl, ?_, trivial⟩
    unfold fusInit
    split_ifs <;> rfl
  | feed x =>
    simp only [FusDrv.call, saamDrv]
    cases fusSaamFeed x.junk x.s s with
    | ub => exact Or.inl ⟨rfl, rfl⟩
    | ok r => exact Or.inr ⟨_, _, _, _, rfl, rfl, trivial⟩
  | set s' => exact Or.inr ⟨_, _, _, _, rfl, rfl, trivial⟩

/-- A driver with a frequency and a flag, which `init` does not touch and a feed never clears. -/
structure RateFlag {S A O : Type} (D : FusDrv (ℕ × Bool) S A O) : Prop where
  init : ∀ g f b, D.init g (f, b) = ((fusInit g f).1, (fusInit g f).2, b)
  feed : ∀ f s x, D.feed (f, true) s x = ub ∨ ∃ s' o, D.feed (f, true) s x = ok ((f, true), s', o)

theorem RateFlag.independent {S A O : Type} {D : FusDrv (ℕ × Bool) S A O} (hD : RateFlag D) (f : ℕ) (s : ℕ → S)
    (h : List (ℕ × FusCall S A)) (h1 : OneRate f h) : Independent D (f, true) s h := by
  refine independent_of D (fun h t ti => OneRate f h ∧ t = (f, true) ∧ ∀ j, ti j = (f, true)) ?_ h (f, true) (fun _ => (f, true)) s
    ⟨h1, rfl, fun _ => rfl⟩
  rintro i c h t ti s ⟨k1, rfl, k3⟩
  have r1 : OneRate f h := fun j g m => k1 j g (List.mem_cons_of_mem _ m)
  have r3 : ∀ j, Function.update ti i (f, true) j = (f, true) := by
    intro j
    by_cases hj : j = i
    · rw [hj, Function.update_self]
    · rw [Function.update_of_ne hj, k3]
  cases c with
  | init g =>
    right
    have e : (fusInit g f).2 = f := by
      unfold fusInit
      rcases k1 i g List.mem_cons_self with rfl | rfl
      · split_ifs <;> rfl
      · rfl
    refine ⟨(f, true), (f, true), s, .init (fusInit g f).1, ?_, ?_, r1, rfl, r3⟩
    · simp only [FusDrv.call, hD.init, e]
    · simp only [FusDrv.call, k3, hD.init, e]
  | feed x =>
    simp only [FusDrv.call, k3]
    rcases hD.feed f s x with e | ⟨s', o, e⟩
    · left
      rw [e]
      exact ⟨rfl, rfl⟩
    · right
      rw [e, ok_bind]
      exact ⟨_, _, _, _, rfl, rfl, r1, rfl, r3⟩
  | set s' => exact Or.inr ⟨(f, true), (f, true), _, _, rfl, by rw [k3]; rfl, r1, rfl, r3⟩

theorem aqua_rateFlag : RateFlag (aquaDrv (R := R)) := by
  refine ⟨fun _ _ _ => rfl, ?_⟩
  rintro f ⟨c, q⟩ x
  have e : fusAquaFeed x.junk f true c x.s q = ub ∨ ∃ rc s c' q', fusAquaFeed x.junk f true c x.s q = ok (rc, s, c', q', true) := by
    unfold fusAquaFeed
    by_cases h : (CReal.lt c.alpha (lit 0) || CReal.gt c.alpha (lit 1) || CReal.lt c.beta (lit 0) || CReal.gt c.beta (lit 1)) = true
    · rw [if_pos h]
      exact Or.inr ⟨_, _, _, _, rfl⟩
    · rw [if_neg h]
      simp only [ok_bind, if_true]
      cases fusAqua x.junk f _ x.s q with
      | ub => exact Or.inl rfl
      | ok r => exact Or.inr ⟨_, _, _, _, rfl⟩
  simp only [aquaDrv]
  rcases e with e | ⟨rc, s, c', q', e⟩
  · rw [e]; exact Or.inl rfl
  · rw [e]; exact Or.inr ⟨_, _, rfl⟩

theorem kalm_rateFlag : RateFlag (kalmDrv (R := R)) := by
  refine ⟨fun _ _ _ => rfl, ?_⟩
  rintro f ⟨c, q⟩ x
  have e : fusKalmFeed x.junk f x.incl x.s c q true = ub ∨ ∃ rc s c' q', fusKalmFeed x.junk f x.incl x.s c q true = ok (rc, s, c', q', true) := by
    unfold fusKalmFeed
    by_cases h : (CReal.lt c.varG (lit 0) || CReal.lt c.varA (lit 0) || CReal.lt c.varM (lit 0)) = true
    · rw [if_pos h]
      exact Or.inr ⟨_, _, _, _, rfl⟩
    · rw [if_neg h, if_pos rfl]
      cases fusKalman x.junk f x.incl c x.s q with
      | ub => exact Or.inl rfl
      | ok r => exact Or.inr ⟨_, _, _, _, rfl⟩
  simp only [kalmDrv]
  rcases e with e | ⟨rc, s, c', q', e⟩
  · rw [e]; exact Or.inl rfl
  · rw [e]; exact Or.inr ⟨_, _, rfl⟩

/-- C142 for AQUA, partial: once some instance has been fed, and if all use the same frequency, instances are independent from then on. Missing:
the first feeds, and different frequencies, for which it is false (`aqua_instances_interfere`). -/
theorem aqua_instances_partial (f : ℕ) (s : ℕ → AquaCfg R × Quat R) (h : List (ℕ × FusCall (AquaCfg R × Quat R) (FeedArgs R)))
    (h1 : OneRate f h) : Independent aquaDrv (f, true) s h := aqua_rateFlag.independent f s h h1

/-- C142 for the Kalman filter, partial in the same way (`kalm_instances_interfere`). -/
theorem kalm_instances_partial (f : ℕ) (s : ℕ → KalmCfg R × Quat R) (h : List (ℕ × FusCall (KalmCfg R × Quat R) (KalmArgs R)))
    (h1 : OneRate f h) : Independent kalmDrv (f, true) s h := kalm_rateFlag.independent f s h h1

/-- C143: the Mahony filter can be restarted. -/
theorem mahn_restarts {f : ℕ} (hf : f ≠ 0) (t₀ : ℕ) (s₀ : MahnCfg R × Quat R) (h h' : List (FusCall (MahnCfg R × Quat R) (FeedArgs R))) :
    Restarts mahnDrv t₀ s₀ f h h' := mahn_rateOnly.restarts hf t₀ s₀ h h'

/-- C143: the Madgwick filter can be restarted. -/
theorem madg_restarts {f : ℕ} (hf : f ≠ 0) (t₀ : ℕ) (s₀ : R × Quat R) (h h' : List (FusCall (R × Quat R) (FeedArgs R))) :
    Restarts madgDrv t₀ s₀ f h h' := madg_rateOnly.restarts hf t₀ s₀ h h'

/-- C143: the complementary filter can be restarted. -/
theorem comp_restarts {f : ℕ} (hf : f ≠ 0) (t₀ : ℕ) (s₀ : R × Quat R) (h h' : List (FusCall (R × Quat R) (FeedArgs R))) :
    Restarts compDrv t₀ s₀ f h h' := comp_rateOnly.restarts hf t₀ s₀ h h'

/-- C143: SAAM can be restarted. -/
theorem saam_restarts {f : ℕ} (hf : f ≠ 0) (t₀ : ℕ) (s₀ : Quat R) (h h' : List (FusCall (Quat R) (FeedArgs R))) :
    Restarts saamDrv t₀ s₀ f h h' := saam_rateOnly.restarts hf t₀ s₀ h h'

end

/-- The hypotheses of the partial theorems are met by an interleaving of two instances. -/
example {S A : Type} (x y z : A) (s : S) :
    let h : List (ℕ × FusCall S A) := [(0, .init 100), (1, .init 100), (0, .feed x), (1, .feed y), (1, .set s), (0, .feed z), (1, .feed x)]
    OneRate 100 h ∧ InitFirst 100 h := by
  refine ⟨?_, ?_⟩
  · intro i g hm
    simp at hm
    omega
  · intro h₁ i x' h₂ e
    rcases h₁ with _ | ⟨a1, _ | ⟨a2, _ | ⟨a3, h⟩⟩⟩
    · simp at e
    · simp at e
    · simp at e
      obtain ⟨rfl, rfl, ⟨rfl, _⟩, _⟩ := e
      simp
    · simp at e
      obtain ⟨rfl, rfl, rfl, e⟩ := e
      have : i ∈ [1, 1, 0, 1] := by
        have := congrArg (List.map Prod.fst) e
        simp at this
        rw [this]
        simp
      simp at this
      rcases this with rfl | rfl | rfl <;> simp

/-! ## Where it fails -/

/-- The Euler steps of different lengths of a turning attitude differ. -/
theorem eulerStep_inj {f f' : ℕ} (hf : 0 < f) (hf' : 0 < f') (hne : f ≠ f') {g : V3} (hg : g ≠ 0) {q : ℍ[ℝ]} (hq : 1e-6 ≤ ‖q‖) :
    eulerStep f g q ≠ eulerStep f' g q := by
  intro e
  have dn : ∀ n : ℕ, ∃ r : ℝ, 0 < r ∧ eulerStep n g q = (r • (1 + (1 / (2 * (n : ℝ))) • pureQ g)) * direction q := by
    intro n
    have h1 : 1e-6 ≤ ‖(1 + (1 / (2 * (n : ℝ))) • pureQ g) * direction q‖ := by
      refine le_trans ?_ ((one_le_norm_rate (1 / (2 * (n : ℝ))) g).trans_eq ?_)
      · norm_num
      · rw [norm_mul, norm_direction hq, mul_one]
    refine ⟨‖(1 + (1 / (2 * (n : ℝ))) • pureQ g) * direction q‖⁻¹, inv_pos.2 (lt_of_lt_of_le (by norm_num) h1), ?_⟩
    have h2 : ∀ x : ℍ[ℝ], 1e-6 ≤ ‖x‖ → direction x = ‖x‖⁻¹ • x := fun x hx => by unfold direction; rw [if_neg (not_lt.2 hx)]
    rw [smul_mul_assoc]
    exact h2 _ h1
  obtain ⟨r, hr, e1⟩ := dn f
  obtain ⟨r', hr', e2⟩ := dn f'
  rw [e1, e2] at e
  have hd : direction q ≠ 0 := by
    intro h0
    have := norm_direction hq
    rw [h0, norm_zero] at this
    norm_num at this
  have e := mul_right_cancel₀ hd e
  have e0 := congrArg (fun x : ℍ[ℝ] => x.re) e
  have ei := congrArg (fun x : ℍ[ℝ] => x.imI) e
  have ej := congrArg (fun x : ℍ[ℝ] => x.imJ) e
  have ek := congrArg (fun x : ℍ[ℝ] => x.imK) e
  have p0 : (pureQ g).re = 0 := rfl
  have p1 : (pureQ g).imI = g 0 := rfl
  have p2 : (pureQ g).imJ = g 1 := rfl
  have p3 : (pureQ g).imK = g 2 := rfl
  simp [p0, p1, p2, p3] at e0 ei ej ek
  subst e0
  have hff : (f : ℝ) ≠ f' := by exact_mod_cast hne
  have h1 : (0 : ℝ) < f := by exact_mod_cast hf
  have h2 : (0 : ℝ) < f' := by exact_mod_cast hf'
  have key : ∀ y : ℝ, r * ((f : ℝ)⁻¹ * 2⁻¹ * y) = r * ((f' : ℝ)⁻¹ * 2⁻¹ * y) → y = 0 := by
    intro y hy
    have := mul_left_cancel₀ hr.ne' hy
    field_simp at this
    by_contra h0
    exact hff (by
      apply mul_left_cancel₀ h0
      linarith)
  refine hg ?_
  ext i
  fin_cases i
  · exact key _ (by simpa using ei)
  · exact key _ (by simpa using ej)
  · exact key _ (by simpa using ek)

/-- Two instances at different frequencies: the first is fed after the second has been initialised. -/
def twoRates {S A : Type} (f f' : ℕ) (x : A) : List (ℕ × FusCall S A) := [(0, .init f), (1, .init f'), (0, .feed x)]

theorem not_independent_of {S A O : Type} {D : FusDrv ℕ S A O} (hD : D.init = fusInit) {f f' : ℕ} (hf : 0 < f) (hf' : 0 < f') {t : ℕ} {s : ℕ → S} {x : A}
    {s1 s2 : S} {o1 o2 : O} (h1 : D.feed f (s 0) x = ok (f, s1, o1)) (h2 : D.feed f' (s 0) x = ok (f', s2, o2)) (hne : s1 ≠ s2) :
    ¬ Independent D t s (twoRates f f' x) := by
  intro hI
  have e : ∀ g, 0 < g → ∀ t, fusInit g t = (0, g) := fun g hg t => by unfold fusInit; rw [if_neg (by omega)]
  have r1 : D.run t s (twoRates f f' x) = ok (f', Function.update s 0 s2, [(0, .init 0), (1, .init 0), (0, .feed o2)]) := by
    simp only [twoRates, FusDrv.run, FusDrv.call, hD, e f hf, e f' hf', ok_bind, Function.update_eq_self]
    rw [h2]
    rfl
  obtain ⟨ti, h⟩ := hI.1 _ _ _ r1 0
  have r2 : D.alone t (s 0) (proj 0 (twoRates f f' x)) = ok (f, s1, [.init 0, .feed o1]) := by
    simp only [twoRates, proj_self, proj_ne (show (1 : ℕ) ≠ 0 by norm_num), proj_nil, FusDrv.alone, FusDrv.call, hD, e f hf, ok_bind]
    rw [h1]
    rfl
  rw [r2, Function.update_self] at h
  injection h with h
  exact hne (Prod.mk.inj (Prod.mk.inj h).2).1

/-- C142, negation for the Mahony filter: a second instance which is initialised with another frequency changes what the first one computes, for
every turning rate. -/
theorem mahn_instances_interfere (junk : ℕ → XR) {f f' : ℕ} (hf : 0 < f) (hf' : 0 < f') (hne : f ≠ f') (t : ℕ) (incl : Option ℝ) (c : MahnSet)
    (hp : 0 ≤ c.kp) (hi : 0 ≤ c.ki) (s : ℕ → MahnCfg XR × Quat XR) {q : ℍ[ℝ]} (hq : 1e-6 ≤ ‖q‖) (h0 : s 0 = (c.cfg, quat q)) {g : V3} (hg : g ≠ 0) :
    ¬ Independent mahnDrv t s (twoRates f f' ⟨Reading.sens ⟨none, none, g⟩, optFin incl, junk⟩) := by
  have e : ∀ n, 0 < n → mahnDrv.feed n (s 0) ⟨Reading.sens ⟨none, none, g⟩, optFin incl, junk⟩ =
      ok (n, (c.cfg, quat (eulerStep n g q)), 0, Reading.sens ⟨none, none, g⟩) := by
    intro n hn
    rw [h0]
    simp only [mahnDrv]
    rw [mahn_feed_gyro junk hn incl c hp hi q hq ⟨none, none, g⟩ (by simp), ok_bind]
    rfl
  refine not_independent_of rfl hf hf' (e f hf) (e f' hf') ?_
  intro h
  exact eulerStep_inj hf hf' hne hg hq (quat_injective (Prod.mk.inj h).2)

/-- C142, negation for the Madgwick filter. -/
theorem madg_instances_interfere (junk : ℕ → XR) {f f' : ℕ} (hf : 0 < f) (hf' : 0 < f') (hne : f ≠ f') (t : ℕ) (incl : Option ℝ) {beta : ℝ}
    (hb : 0 ≤ beta) (s : ℕ → XR × Quat XR) {q : ℍ[ℝ]} (hq : 1e-6 ≤ ‖q‖) (h0 : s 0 = (XR.fin beta, quat q)) {g : V3} (hg : g ≠ 0) :
    ¬ Independent madgDrv t s (twoRates f f' ⟨Reading.sens ⟨none, none, g⟩, optFin incl, junk⟩) := by
  have e : ∀ n, 0 < n → madgDrv.feed n (s 0) ⟨Reading.sens ⟨none, none, g⟩, optFin incl, junk⟩ =
      ok (n, (XR.fin beta, quat (eulerStep n g q)), 0, Reading.sens ⟨none, none, g⟩) := by
    intro n hn
    rw [h0]
    simp only [madgDrv]
    rw [madg_feed_gyro junk hn incl beta hb q hq ⟨none, none, g⟩ (by simp), ok_bind]
    rfl
  refine not_independent_of rfl hf hf' (e f hf) (e f' hf') ?_
  intro h
  exact eulerStep_inj hf hf' hne hg hq (quat_injective (Prod.mk.inj h).2)

/-- C142, negation for the complementary filter. -/
theorem comp_instances_interfere (junk : ℕ → XR) {f f' : ℕ} (hf : 0 < f) (hf' : 0 < f') (hne : f ≠ f') (t : ℕ) {a : ℝ} (h1 : 0 ≤ a) (h2 : a ≤ 1)
    (s : ℕ → XR × Quat XR) {q : ℍ[ℝ]} (hq : 1e-6 ≤ ‖q‖) (h0 : s 0 = (XR.fin a, quat q)) {g : V3} (hg : g ≠ 0) :
    ¬ Independent compDrv t s (twoRates f f' ⟨Reading.sens ⟨none, none, g⟩, none, junk⟩) := by
  have e : ∀ n, 0 < n → compDrv.feed n (s 0) ⟨Reading.sens ⟨none, none, g⟩, none, junk⟩ =
      ok (n, (XR.fin a, quat (eulerStep n g q)), 0, Reading.sens ⟨none, none, g⟩) := by
    intro n hn
    rw [h0]
    simp only [compDrv]
    rw [comp_feed_gyro junk hn a h1 h2 q hq ⟨none, none, g⟩ (by simp), ok_bind]
    rfl
  refine not_independent_of rfl hf hf' (e f hf) (e f' hf') ?_
  intro h
  exact eulerStep_inj hf hf' hne hg hq (quat_injective (Prod.mk.inj h).2)

/-- The hypotheses are met: 100 Hz and 200 Hz, a rate of 1 rad/s. -/
example (junk : ℕ → XR) : ¬ Independent mahnDrv 0 (fun _ => (MahnSet.cfg ⟨0.2, 0.02, 1, 0⟩, quat 1))
    (twoRates 100 200 ⟨Reading.sens ⟨none, none, ![1, 0, 0]⟩, optFin none, junk⟩) :=
  mahn_instances_interfere junk (by norm_num) (by norm_num) (by norm_num) 0 none ⟨0.2, 0.02, 1, 0⟩ (by norm_num) (by norm_num) _ (by norm_num) rfl
    (fun h => by simpa using congrFun h 0)

/-- Two instances at the same frequency, one after the other. -/
def twoFeeds {S A : Type} (f : ℕ) (x y : A) : List (ℕ × FusCall S A) := [(1, .init f), (1, .feed x), (0, .init f), (0, .feed y)]

theorem not_independent_flag {S A O : Type} {D : FusDrv (ℕ × Bool) S A O} (hD : ∀ g f b, D.init g (f, b) = ((fusInit g f).1, (fusInit g f).2, b))
    {f : ℕ} (hf : 0 < f) {t : ℕ} {s : ℕ → S} {x y : A} {s0 s1 s2 : S} {o0 o1 o2 : O} {b : Bool}
    (h0 : D.feed (f, false) (s 1) x = ok ((f, true), s0, o0)) (h1 : D.feed (f, true) (s 0) y = ok ((f, true), s1, o1))
    (h2 : D.feed (f, false) (s 0) y = ok ((f, b), s2, o2)) (hne : s1 ≠ s2) : ¬ Independent D (t, false) s (twoFeeds f x y) := by
  intro hI
  have e : ∀ t, fusInit f t = (0, f) := fun t => by unfold fusInit; rw [if_neg (by omega)]
  have r1 : D.run (t, false) s (twoFeeds f x y) = ok ((f, true), Function.update (Function.update s 1 s0) 0 s1,
      [(1, .init 0), (1, .feed o0), (0, .init 0), (0, .feed o1)]) := by
    simp only [twoFeeds, FusDrv.run, FusDrv.call, hD, e, ok_bind, Function.update_eq_self]
    rw [h0, ok_bind]
    simp only [pure_eq, ok_bind, Function.update_of_ne (show (0 : ℕ) ≠ 1 by norm_num)]
    rw [h1]
    rfl
  obtain ⟨ti, h⟩ := hI.1 _ _ _ r1 0
  have r2 : D.alone (t, false) (s 0) (proj 0 (twoFeeds f x y)) = ok ((f, b), s2, [.init 0, .feed o2]) := by
    simp only [twoFeeds, proj_self, proj_ne (show (1 : ℕ) ≠ 0 by norm_num), proj_nil, FusDrv.alone, FusDrv.call, hD, e, ok_bind]
    rw [h2]
    rfl
  rw [r2, Function.update_self] at h
  injection h with h
  exact hne (Prod.mk.inj (Prod.mk.inj h).2).1.symm

theorem not_restarts_flag {S A O : Type} {D : FusDrv (ℕ × Bool) S A O} (hD : ∀ g f b, D.init g (f, b) = ((fusInit g f).1, (fusInit g f).2, b))
    {f : ℕ} (hf : 0 < f) {t : ℕ} {s : S} {y : A} {s1 s2 : S} {o1 o2 : O}
    (h1 : D.feed (f, true) s y = ok ((f, true), s1, o1))
    (h2 : D.feed (f, false) s y = ok ((f, true), s2, o2)) (hne : s1 ≠ s2) : ¬ Restarts D (t, false) s f [.init f, .feed y] [.feed y] := by
  intro hI
  have e : ∀ t, fusInit f t = (0, f) := fun t => by unfold fusInit; rw [if_neg (by omega)]
  have r2 : D.alone (t, false) s [.init f, .feed y] = ok ((f, true), s2, [.init 0, .feed o2]) := by
    simp only [FusDrv.alone, FusDrv.call, hD, e, ok_bind]
    rw [h2]
    rfl
  have h := hI _ _ _ _ _ _ r2 r2
  rw [alone_append, r2, ok_bind] at h
  simp only [FusDrv.alone, FusDrv.call, hD, e, ok_bind] at h
  rw [h1] at h
  injection h with h
  exact hne (Prod.mk.inj (Prod.mk.inj h).2).1

/-- A feed of AQUA with an accelerometer and without magnetometer. -/
theorem aqua_drv_feed (junk : ℕ → XR) {f : ℕ} (hf : 0 < f) {c : AquaR} (hc : c.Valid) (b : Bool) (q : ℍ[ℝ]) (hq : 1e-6 ≤ ‖q‖) (a g : V3)
    (ha : 1e-6 < len a) (hs : seen (aquaGyro f q g) a ≠ -up) : ∃ q' s',
    aquaDrv.feed (f, b) (c.cfg, quat q) ⟨Reading.sens ⟨some a, none, g⟩, none, junk⟩ =
      ok ((f, true), ((c.adapt b a).cfg, quat q'), 0, s') := by
  obtain ⟨q', h, -, -⟩ := aqua_feed_acc junk hf hc b q hq a g none ha (by simp) hs
  refine ⟨q', Reading.sens ⟨some (unitOf a), none, fun i => g i * -1⟩, ?_⟩
  simp only [aquaDrv]
  rw [h, ok_bind]
  rfl

theorem adapt_ne {c : AquaR} (h0 : c.alpha ≠ 0) {a : V3} (h : |len a - 9.81| / 9.81 ≥ 0.2) : (c.adapt true a).cfg ≠ (c.adapt false a).cfg := by
  intro e
  have := congrArg AquaCfg.alpha e
  simp only [AquaR.adapt, AquaR.cfg, firstAlpha, if_pos h, Bool.false_eq_true, if_false, if_true, XR.fin.injEq] at this
  exact h0 this

/-- C142, negation for AQUA, with the same frequency and accepted feeds throughout: when the first reading of an instance is off by a fifth of
gravity or more, its gain becomes zero if it is alone, but keeps its value if another instance has been fed before. -/
theorem aqua_instances_interfere (junk : ℕ → XR) {f : ℕ} (hf : 0 < f) (t : ℕ) {c c' : AquaR} (hc : c.Valid) (hc' : c'.Valid) (h0 : c.alpha ≠ 0)
    {q q' : ℍ[ℝ]} (hq : 1e-6 ≤ ‖q‖) (hq' : 1e-6 ≤ ‖q'‖) (s : ℕ → AquaCfg XR × Quat XR) (e0 : s 0 = (c.cfg, quat q)) (e1 : s 1 = (c'.cfg, quat q'))
    {a a' g g' : V3} (ha : 1e-6 < len a) (ha' : 1e-6 < len a') (hs : seen (aquaGyro f q g) a ≠ -up) (hs' : seen (aquaGyro f q' g') a' ≠ -up)
    (hb : |len a - 9.81| / 9.81 ≥ 0.2) :
    ¬ Independent aquaDrv (t, false) s
      (twoFeeds f ⟨Reading.sens ⟨some a', none, g'⟩, none, junk⟩ ⟨Reading.sens ⟨some a, none, g⟩, none, junk⟩) := by
  obtain ⟨q0, s0, h1⟩ := aqua_drv_feed junk hf hc' false q' hq' a' g' ha' hs'
  obtain ⟨q1, s1, h2⟩ := aqua_drv_feed junk hf hc true q hq a g ha hs
  obtain ⟨q2, s2, h3⟩ := aqua_drv_feed junk hf hc false q hq a g ha hs
  rw [← e1] at h1
  rw [← e0] at h2 h3
  exact not_independent_flag (fun _ _ _ => rfl) hf h1 h2 h3 fun h => adapt_ne h0 hb (Prod.mk.inj h).1

/-- C143, negation for AQUA: `init` does not restart it. Fed with the same reading once more, after its owner has put back configuration and
attitude and called `init`, it does not adapt its gain again. -/
theorem aqua_not_restarts (junk : ℕ → XR) {f : ℕ} (hf : 0 < f) (t : ℕ) {c : AquaR} (hc : c.Valid) (h0 : c.alpha ≠ 0) {q : ℍ[ℝ]} (hq : 1e-6 ≤ ‖q‖)
    {a g : V3} (ha : 1e-6 < len a) (hs : seen (aquaGyro f q g) a ≠ -up) (hb : |len a - 9.81| / 9.81 ≥ 0.2) :
    ¬ Restarts aquaDrv (t, false) (c.cfg, quat q) f [.init f, .feed ⟨Reading.sens ⟨some a, none, g⟩, none, junk⟩]
      [.feed ⟨Reading.sens ⟨some a, none, g⟩, none, junk⟩] := by
  obtain ⟨q1, s1, h2⟩ := aqua_drv_feed junk hf hc true q hq a g ha hs
  obtain ⟨q2, s2, h3⟩ := aqua_drv_feed junk hf hc false q hq a g ha hs
  exact not_restarts_flag (fun _ _ _ => rfl) hf h2 h3 fun h => adapt_ne h0 hb (Prod.mk.inj h).1

/-- The hypotheses are met: a level device whose first reading is 20 m/s². -/
example : ∃ (c : AquaR) (a g : V3), c.Valid ∧ c.alpha ≠ 0 ∧ 1e-6 < len a ∧ seen (aquaGyro 100 1 g) a ≠ -up ∧ |len a - 9.81| / 9.81 ≥ 0.2 := by
  have hl : len ![0, 0, 20] = 20 := by
    unfold len
    rw [show (![0, 0, 20] : V3) ⬝ᵥ ![0, 0, 20] = 20 ^ 2 by simp [dotProduct, Fin.sum_univ_three]; norm_num]
    exact Real.sqrt_sq (by norm_num)
  refine ⟨⟨0.5, 0.5, 0.9, 0.9⟩, ![0, 0, 20], 0, ⟨by norm_num, by norm_num, by norm_num, by norm_num⟩, by norm_num, by rw [hl]; norm_num, ?_, by rw [hl, abs_of_nonneg] <;> norm_num⟩
  have d1 : direction (1 : ℍ[ℝ]) = 1 := direction_of_norm_one norm_one
  have e1 : aquaGyro 100 1 0 = 1 := by
    unfold aquaGyro eulerStep
    rw [show pureQ (fun i => (0 : V3) i * -1) = 0 by ext <;> simp [pureQ, hq], smul_zero, add_zero, one_mul, d1, d1]
  rw [e1]
  intro h
  have h2 := congrFun h 2
  have hu : unitOf ![0, 0, 20] 2 = 1 := by
    unfold len at hl
    rw [unitOf_ne (fun h => by simpa using congrFun h 2), hl]
    simp
  have hk : ∀ v : V3, (pureQ v).imK = v 2 := fun _ => rfl
  simp [seen, turned, d1, hk, hu, up] at h2
  norm_num at h2

/-- A refused feed of the Kalman filter (no magnetometer): alone, the first such call makes the covariance the identity. -/
theorem kalm_drv_first (junk : ℕ → XR) (f : ℕ) (incl : Option XR) (a g : Option (Vec XR)) (x : KalmIn) (hG : 0 ≤ x.varG) (hA : 0 ≤ x.varA)
    (hM : 0 ≤ x.varM) (P : Matrix (Fin 4) (Fin 4) ℝ) (t : List XR) (q : Quat XR) :
    kalmDrv.feed (f, false) (x.cfg P t, q) ⟨⟨a, none, g⟩, incl, junk⟩ = ok ((f, true), (x.cfg 1 t, q), -EINVAL, ⟨a, none, g⟩) := by
  simp only [kalmDrv]
  rw [kalm_first_rejected junk f incl a g x hG hA hM, ok_bind]
  rfl

theorem kalm_drv_later (junk : ℕ → XR) (f : ℕ) (incl : Option XR) (a g : Option (Vec XR)) (c : KalmCfg XR) (q : Quat XR) :
    kalmDrv.feed (f, true) (c, q) ⟨⟨a, none, g⟩, incl, junk⟩ = ok ((f, true), (c, q), -EINVAL, ⟨a, none, g⟩) := by
  simp only [kalmDrv]
  rw [kalm_feed_rejects junk f incl _ c q (Or.inr (Or.inl (by simp [unusable]))), ok_bind]
  rfl

theorem kalm_cfg_ne {x : KalmIn} {P : Matrix (Fin 4) (Fin 4) ℝ} (hP : P ≠ 1) (t : List XR) : (x.cfg P t) ≠ x.cfg 1 t := by
  intro e
  exact hP (by ext i j; exact mat_inj (congrArg KalmCfg.P e) i j)

/-- C142, negation for the Kalman filter, with the same frequency: once another instance has been fed, the covariance of an instance is not
set to the identity by its first feed, as it is when the instance is alone. -/
theorem kalm_instances_interfere (junk : ℕ → XR) {f : ℕ} (hf : 0 < f) (t : ℕ) (incl : Option XR) (a g : Option (Vec XR)) (x : KalmIn) (hG : 0 ≤ x.varG)
    (hA : 0 ≤ x.varA) (hM : 0 ≤ x.varM) {P : Matrix (Fin 4) (Fin 4) ℝ} (hP : P ≠ 1) (q : Quat XR) :
    ¬ Independent kalmDrv (t, false) (fun _ => (x.cfg P [], q)) (twoFeeds f ⟨⟨a, none, g⟩, incl, junk⟩ ⟨⟨a, none, g⟩, incl, junk⟩) :=
  not_independent_flag (fun _ _ _ => rfl) hf (kalm_drv_first junk f incl a g x hG hA hM P [] q) (kalm_drv_later junk f incl a g (x.cfg P []) q)
    (kalm_drv_first junk f incl a g x hG hA hM P [] q) fun h => kalm_cfg_ne hP [] (Prod.mk.inj h).1

/-- C143, negation for the Kalman filter: `init` does not restart it. -/
theorem kalm_not_restarts (junk : ℕ → XR) {f : ℕ} (hf : 0 < f) (t : ℕ) (incl : Option XR) (a g : Option (Vec XR)) (x : KalmIn) (hG : 0 ≤ x.varG)
    (hA : 0 ≤ x.varA) (hM : 0 ≤ x.varM) {P : Matrix (Fin 4) (Fin 4) ℝ} (hP : P ≠ 1) (q : Quat XR) :
    ¬ Restarts kalmDrv (t, false) (x.cfg P [], q) f [.init f, .feed ⟨⟨a, none, g⟩, incl, junk⟩] [.feed ⟨⟨a, none, g⟩, incl, junk⟩] :=
  not_restarts_flag (fun _ _ _ => rfl) hf (kalm_drv_later junk f incl a g (x.cfg P []) q) (kalm_drv_first junk f incl a g x hG hA hM P [] q)
    fun h => kalm_cfg_ne hP [] (Prod.mk.inj h).1

/-- C142, and this is not harmless: an instance with zero covariance and zero gyroscope variance (a configuration which its first feed would
replace if it were alone), fed after another one, ignores accelerometer and magnetometer, then and in every later call. -/
theorem kalm_second_instance_blind (junk : ℕ → XR) (x : KalmIn) (hf : 0 < x.freq) (hG : x.varG = 0) (hA : 0 ≤ x.varA) (hM : 0 ≤ x.varM)
    (t : List XR) (q : ℍ[ℝ]) :
    kalmDrv.feed (x.freq, true) (x.cfg 0 t, quat q) ⟨x.sens, optFin x.incl, junk⟩ =
      ok ((x.freq, true), (x.cfg 0 t, quat (direction (eulerStep x.freq x.g q))), 0, x.after.sens) := by
  obtain ⟨C, -, h⟩ := kalm_feed_correct junk x hf hG.ge hA hM 0 t q
  have hp : x.prior q 0 = 0 := by simp [KalmIn.prior, hG]
  have h1 : x.post q 0 C = 0 := by rw [KalmIn.post, hp, mul_zero]
  have h2 : x.attPost q 0 C = direction (eulerStep x.freq x.g q) := by
    rw [KalmIn.attPost, KalmIn.gain, hp, Matrix.zero_mul, Matrix.zero_mul, Matrix.zero_mulVec]
    rw [show ofCoords 0 = 0 by ext <;> simp [ofCoords], add_zero]
    rfl
  simp only [kalmDrv]
  rw [h, ok_bind, h1, h2]
  rfl

example : (0 : Matrix (Fin 4) (Fin 4) ℝ) ≠ 1 := fun h => by simpa using congrFun (congrFun h 0) 0

end Verif
