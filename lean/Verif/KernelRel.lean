import Verif.KernelCol

/-
Two kernel runs with the same geometry but different actions for in-range contributions, related
by an arbitrary relation between the memories.
-/

namespace Dream
open Arith

variable {F : Type} [Arith F] {M₁ M₂ : Type}

/-- Both runs end, with related results; or both fail in the same way. -/
def OutRel {α β : Type} (R : α → β → Prop) : Outcome α → Outcome β → Prop
  | .ok a, .ok b => R a b
  | .ub e, .ub e' => e = e'
  | .fuel, .fuel => True
  | _, _ => False

theorem OutRel.bind {α β α' β' : Type} {R : α → β → Prop} {R' : α' → β' → Prop}
    {x : Outcome α} {y : Outcome β} {f : α → Outcome α'} {g : β → Outcome β'}
    (h : OutRel R x y) (hf : ∀ a b, R a b → OutRel R' (f a) (g b)) :
    OutRel R' (x.bind f) (y.bind g) := by
  cases x <;> cases y <;> first | exact h.elim | exact h | exact hf _ _ h

/-- Related loop states. -/
def StRel (R : M₁ → M₂ → Prop) (s : M₁ × SIRError) (t : M₂ × SIRError) : Prop :=
  R s.1 t.1 ∧ s.2 = t.2

def CtlRel (R : M₁ → M₂ → Prop) : Ctl (M₁ × SIRError) → Ctl (M₂ × SIRError) → Prop
  | .next s, .next t => StRel R s t
  | .ret s, .ret t => StRel R s t
  | _, _ => False

/-- The contexts agree but for the action, and in-range actions preserve the relation. -/
structure CtxRel (R : M₁ → M₂ → Prop) (c₁ : Ctx F M₁) (c₂ : Ctx F M₂) : Prop where
  nt : c₁.nt = c₂.nt
  ty : c₁.ty = c₂.ty
  level : c₁.level = c₂.level
  act : ∀ r it ai m₁ m₂, 0 ≤ it → it < (c₁.nt : Int) → R m₁ m₂ →
    OutRel R (c₁.act r it ai m₁) (c₂.act r it ai m₂)

variable {R : M₁ → M₂ → Prop} {c₁ : Ctx F M₁} {c₂ : Ctx F M₂}

theorem deposit_rel (h : CtxRel R c₁ c₂) (p : Pt F) (s : M₁ × SIRError) (t : M₂ × SIRError)
    (hst : StRel R s t) : OutRel (CtlRel R) (deposit c₁ p s) (deposit c₂ p t) := by
  unfold deposit
  rw [h.ty, ← h.nt, h.level]
  cases castIdx c₂.ty (rint p.arg) with
  | ub e => exact rfl
  | fuel => trivial
  | ok it =>
    simp only [Outcome.bind]
    by_cases hr : it < (c₁.nt : Int) ∧ it ≥ 0
    · rw [if_pos hr, if_pos hr]
      exact OutRel.bind (h.act p.r it p.ai s.1 t.1 hr.2 hr.1 hst.1) fun a b hab => ⟨hab, hst.2⟩
    · rw [if_neg hr, if_neg hr]
      split
      · exact ⟨hst.1, rfl⟩
      · exact ⟨hst.1, rfl⟩

theorem innerLoop_rel (h : CtxRel R c₁ c₂) (pt : F → Pt F) (dx xmax : F) (n : Nat) (xs : F)
    (s : M₁ × SIRError) (t : M₂ × SIRError) (hst : StRel R s t) :
    OutRel (CtlRel R) (innerLoop c₁ pt dx xmax n xs s) (innerLoop c₂ pt dx xmax n xs t) := by
  induction n generalizing xs s t with
  | zero => trivial
  | succ n ih =>
    unfold innerLoop
    by_cases hx : le xs xmax
    · rw [if_pos hx, if_pos hx]
      refine OutRel.bind (deposit_rel h (pt xs) s t hst) ?_
      intro a b hab
      cases a <;> cases b <;> first | exact hab.elim | exact ih _ _ _ hab | exact hab
    · rw [if_neg hx, if_neg hx]; exact hst

theorem outerLoop_rel (h : CtxRel R c₁ c₂) (row : F → Row F) (dx dy ymax : F) (fuel n : Nat)
    (ys : F) (s : M₁ × SIRError) (t : M₂ × SIRError) (hst : StRel R s t) :
    OutRel (CtlRel R) (outerLoop c₁ row dx dy ymax fuel n ys s)
      (outerLoop c₂ row dx dy ymax fuel n ys t) := by
  induction n generalizing ys s t with
  | zero => trivial
  | succ n ih =>
    unfold outerLoop
    by_cases hx : le ys ymax
    · rw [if_pos hx, if_pos hx]
      refine OutRel.bind (innerLoop_rel h _ _ _ _ _ s t hst) ?_
      intro a b hab
      cases a <;> cases b <;> first | exact hab.elim | exact ih _ _ _ hab | exact hab
    · rw [if_neg hx, if_neg hx]; exact hst

theorem finish_rel {x : Outcome (Ctl (M₁ × SIRError))} {y : Outcome (Ctl (M₂ × SIRError))}
    (h : OutRel (CtlRel R) x y) : OutRel (StRel R) (finish x) (finish y) := by
  refine OutRel.bind h ?_
  intro a b hab
  cases a <;> cases b <;> first | exact hab.elim | exact hab

theorem runSweep_rel (h : CtxRel R c₁ c₂) (g : Sweep F) (fuel : Nat) (m₁ : M₁) (m₂ : M₂)
    (hm : R m₁ m₂) : OutRel (StRel R) (runSweep c₁ g fuel m₁) (runSweep c₂ g fuel m₂) :=
  finish_rel (outerLoop_rel h _ _ _ _ _ _ _ _ _ ⟨hm, rfl⟩)

theorem runRow_rel (h : CtxRel R c₁ c₂) (row : Row F) (dx : F) (fuel : Nat) (m₁ : M₁) (m₂ : M₂)
    (hm : R m₁ m₂) : OutRel (StRel R) (runRow c₁ row dx fuel m₁) (runRow c₂ row dx fuel m₂) :=
  finish_rel (innerLoop_rel h _ _ _ _ _ _ _ ⟨hm, rfl⟩)

/-- Kernels with different attenuation on related columns. -/
theorem Kern.onCol_rel {R : (Nat → F) → (Nat → F) → Prop} (k : Kern F) (nt : Nat) (ty : IdxTy)
    (level : ErrorLevel) (att₁ att₂ : Option (AttResp F))
    (h : CtxRel R (colCtx nt ty level att₁) (colCtx nt ty level att₂)) (p : Par F) (xo yo zo : F)
    (fuel : Nat) (c₁ c₂ : Nat → F) (hc : R (k.start nt c₁) (k.start nt c₂)) :
    OutRel (StRel R) (k.onCol nt ty level att₁ p xo yo zo fuel c₁)
      (k.onCol nt ty level att₂ p xo yo zo fuel c₂) := by
  cases k with
  | rect w a b => exact runSweep_rel h _ _ _ _ hc
  | circ w R => exact runSweep_rel h _ _ _ _ hc
  | cylind w a b Rc => exact runSweep_rel h _ _ _ _ hc
  | line a => exact runRow_rel h _ _ _ _ _ hc
  | rectF met f a b => exact runSweep_rel h _ _ _ _ hc
  | circF met f R => exact runSweep_rel h _ _ _ _ hc
  | sphere R Rc => exact runSweep_rel h _ _ _ _ hc

end Dream
