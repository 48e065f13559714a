import Verif.KernelThms

/-
What a serial kernel does to its column, for an arbitrary arithmetic.
-/

namespace Dream
open Arith

variable {F : Type} [Arith F]

/-- Does the kernel clear its column before accumulating? -/
def Kern.clears : Kern F → Bool
  | .rect .. => false
  | .circ .. => false
  | .cylind .. => false
  | .line .. => true
  | .rectF .. => true
  | .circF .. => true
  | .sphere .. => true

/-- The surface points of a kernel in loop order; `none` when the sampling loops have not
finished within the fuel. -/
def Kern.points (k : Kern F) (p : Par F) (xo yo zo : F) (fuel : Nat) : Option (List (Pt F)) :=
  match k with
  | .rect w a b => (rectSweep p w xo yo zo a b).points fuel
  | .circ w R => (circSweep p w xo yo zo R).points fuel
  | .cylind w a b Rc => (cylindSweep p w xo yo zo a b Rc).points fuel
  | .line a => (lineRow p xo yo zo a).points p.dx fuel
  | .rectF met f a b => (rectFSweep p met f xo yo zo a b).points fuel
  | .circF met f R => (circFSweep p met f xo yo zo R).points fuel
  | .sphere R Rc => (sphereSweep p xo yo zo R Rc).points fuel

/-- Content of the column when the loops start. -/
def Kern.start (k : Kern F) (nt : Nat) (c : Nat → F) : Nat → F :=
  if k.clears then fun i => if i < nt then lit 0 else c i else c

/-- The kernel on a column held as a function. -/
def Kern.onCol (k : Kern F) (nt : Nat) (ty : IdxTy) (level : ErrorLevel)
    (att : Option (AttResp F)) (p : Par F) (xo yo zo : F) (fuel : Nat) (c : Nat → F) :
    Outcome ((Nat → F) × SIRError) :=
  let c' := k.start nt c
  let ctx := colCtx nt ty level att
  match k with
  | .rect w a b => runSweep ctx (rectSweep p w xo yo zo a b) fuel c'
  | .circ w R => runSweep ctx (circSweep p w xo yo zo R) fuel c'
  | .cylind w a b Rc => runSweep ctx (cylindSweep p w xo yo zo a b Rc) fuel c'
  | .line a => runRow ctx (lineRow p xo yo zo a) p.dx fuel c'
  | .rectF met f a b => runSweep ctx (rectFSweep p met f xo yo zo a b) fuel c'
  | .circF met f R => runSweep ctx (circFSweep p met f xo yo zo R) fuel c'
  | .sphere R Rc => runSweep ctx (sphereSweep p xo yo zo R Rc) fuel c'

/-- Every kernel acts on the matrix exactly as its column version acts on the column, and
leaves the rest of the matrix alone. -/
theorem Kern.serial_eq (k : Kern F) (nt : Nat) (ty : IdxTy) (level : ErrorLevel)
    (att : Option (AttResp F)) (p : Par F) (xo yo zo : F) (fuel base : Nat) (m : Buf F)
    (hb : base + nt ≤ m.size) :
    k.serial nt ty level att p xo yo zo fuel base m =
      (k.onCol nt ty level att p xo yo zo fuel (m.getCol base nt)).map
        (liftS (m.setCol base nt)) := by
  have hs := flat_sim nt ty level att base m hb
  have h0 : m.setCol base nt (m.getCol base nt) = m := Buf.setCol_getCol m base nt
  have hc := clearCol_setCol m base nt (m.getCol base nt) hb nt (Nat.le_refl _)
  rw [h0] at hc
  cases k with
  | rect w a b =>
    simp only [Kern.serial, dreamrectSerial, Kern.onCol, Kern.start, Kern.clears]
    rw [← runSweep_sim hs]; simp [h0]
  | circ w R =>
    simp only [Kern.serial, dreamcircSerial, Kern.onCol, Kern.start, Kern.clears]
    rw [← runSweep_sim hs]; simp [h0]
  | cylind w a b Rc =>
    simp only [Kern.serial, dreamcylindSerial, Kern.onCol, Kern.start, Kern.clears]
    rw [← runSweep_sim hs]; simp [h0]
  | line a =>
    simp only [Kern.serial, dreamlineSerial, Kern.onCol, Kern.start, Kern.clears]
    rw [← runRow_sim hs, hc]; rfl
  | rectF met f a b =>
    simp only [Kern.serial, dreamrectFSerial, Kern.onCol, Kern.start, Kern.clears]
    rw [← runSweep_sim hs, hc]; rfl
  | circF met f R =>
    simp only [Kern.serial, dreamcircFSerial, Kern.onCol, Kern.start, Kern.clears]
    rw [← runSweep_sim hs, hc]; rfl
  | sphere R Rc =>
    simp only [Kern.serial, dreamsphereSerial, Kern.onCol, Kern.start, Kern.clears]
    rw [← runSweep_sim hs, hc]; rfl

theorem Kern.onCol_points (k : Kern F) (nt : Nat) (ty : IdxTy) (level : ErrorLevel)
    (att : Option (AttResp F)) (p : Par F) (xo yo zo : F) (fuel : Nat) (c : Nat → F)
    (ps : List (Pt F)) (h : k.points p xo yo zo fuel = some ps) :
    k.onCol nt ty level att p xo yo zo fuel c =
      finish (runPts (colCtx nt ty level att) ps (k.start nt c, .none)) := by
  cases k <;> simp only [Kern.points] at h <;> simp only [Kern.onCol] <;>
    first
    | rw [runSweep_eq_runPts _ _ _ _ h]
    | rw [runRow_eq_runPts _ _ _ _ _ h]

/-! ### Which outcomes are possible -/

theorem castIdx_ne_oob (ty : IdxTy) (x : Option Int) : castIdx ty x ≠ .ub .oob := by
  cases x with
  | none => simp [castIdx]
  | some i => simp only [castIdx]; split <;> simp

theorem castIdx_ne_fuel (ty : IdxTy) (x : Option Int) : castIdx ty x ≠ .fuel := by
  cases x with
  | none => simp [castIdx]
  | some i => simp only [castIdx]; split <;> simp

/-- Every deposit on a column is decided by the cast. -/
theorem deposit_col_cases (nt : Nat) (ty : IdxTy) (level : ErrorLevel)
    (att : Option (AttResp F)) (p : Pt F) (s : (Nat → F) × SIRError) :
    (∃ k, deposit (colCtx nt ty level att) p s = .ok k) ∨
      (deposit (colCtx nt ty level att) p s = .ub .cast ∧
        castIdx ty (rint p.arg) = .ub .cast) := by
  unfold deposit
  have hty : (colCtx nt ty level att).ty = ty := rfl
  rw [hty]
  cases hr : rint p.arg with
  | none => right; exact ⟨rfl, rfl⟩
  | some i =>
    by_cases hf : ty.fits i
    · left
      have : castIdx ty (some i) = .ok i := by simp [castIdx, hf]
      rw [this]
      simp only [Outcome.bind]
      by_cases hr : (i < ((colCtx nt ty level att).nt : Int) ∧ i ≥ 0)
      · rw [if_pos hr]; exact ⟨_, rfl⟩
      · rw [if_neg hr]
        by_cases hl : oobErr (colCtx nt ty level att).level = .outOfBounds
        · exact ⟨_, by rw [if_pos hl]⟩
        · exact ⟨_, by rw [if_neg hl]⟩
    · right
      have : castIdx ty (some i) = .ub .cast := by simp [castIdx, hf]
      rw [this]
      exact ⟨rfl, rfl⟩

/-- The only undefined behaviour of the column version is the index cast. -/
theorem deposit_col_ub (nt : Nat) (ty : IdxTy) (level : ErrorLevel) (att : Option (AttResp F))
    (p : Pt F) (s : (Nat → F) × SIRError) (e : UB)
    (h : deposit (colCtx nt ty level att) p s = .ub e) :
    e = .cast ∧ castIdx ty (rint p.arg) = .ub .cast := by
  rcases deposit_col_cases nt ty level att p s with ⟨k, hk⟩ | ⟨h1, h2⟩
  · rw [hk] at h; simp at h
  · rw [h1] at h
    simp only [Outcome.ub.injEq] at h
    exact ⟨h.symm, h2⟩

theorem innerLoop_col_ub (nt : Nat) (ty : IdxTy) (level : ErrorLevel) (att : Option (AttResp F))
    (pt : F → Pt F) (dx xmax : F) (n : Nat) (x : F) (s : (Nat → F) × SIRError) (e : UB)
    (h : innerLoop (colCtx nt ty level att) pt dx xmax n x s = .ub e) : e = .cast := by
  induction n generalizing x s with
  | zero => simp [innerLoop] at h
  | succ n ih =>
    unfold innerLoop at h
    split at h
    · cases hd : deposit (colCtx nt ty level att) (pt x) s with
      | ok k =>
        rw [hd] at h
        cases k with
        | next s' => exact ih _ _ h
        | ret s' => simp at h
      | ub e' =>
        rw [hd] at h
        simp only [Outcome.bind, Outcome.ub.injEq] at h
        subst h
        exact (deposit_col_ub _ _ _ _ _ _ _ hd).1
      | fuel => rw [hd] at h; simp at h
    · simp at h

theorem outerLoop_col_ub (nt : Nat) (ty : IdxTy) (level : ErrorLevel) (att : Option (AttResp F))
    (row : F → Row F) (dx dy ymax : F) (fuel n : Nat) (y : F) (s : (Nat → F) × SIRError) (e : UB)
    (h : outerLoop (colCtx nt ty level att) row dx dy ymax fuel n y s = .ub e) : e = .cast := by
  induction n generalizing y s with
  | zero => simp [outerLoop] at h
  | succ n ih =>
    unfold outerLoop at h
    split at h
    · cases hd : innerLoop (colCtx nt ty level att) (row y).pt dx (row y).xmax fuel (row y).x0 s with
      | ok k =>
        rw [hd] at h
        cases k with
        | next s' => exact ih _ _ h
        | ret s' => simp at h
      | ub e' =>
        rw [hd] at h
        simp only [Outcome.bind, Outcome.ub.injEq] at h
        subst h
        exact innerLoop_col_ub _ _ _ _ _ _ _ _ _ _ _ hd
      | fuel => rw [hd] at h; simp at h
    · simp at h

theorem finish_ub {M : Type} (x : Outcome (Ctl (M × SIRError))) (e : UB) :
    finish x = .ub e ↔ x = .ub e := by
  cases x with
  | ok k => cases k <;> simp [finish]
  | ub e' => simp [finish]
  | fuel => simp [finish]

theorem Kern.onCol_ub (k : Kern F) (nt : Nat) (ty : IdxTy) (level : ErrorLevel)
    (att : Option (AttResp F)) (p : Par F) (xo yo zo : F) (fuel : Nat) (c : Nat → F) (e : UB)
    (h : k.onCol nt ty level att p xo yo zo fuel c = .ub e) : e = .cast := by
  cases k <;> simp only [Kern.onCol, runSweep, runRow] at h <;> rw [finish_ub] at h <;>
    first
    | exact outerLoop_col_ub _ _ _ _ _ _ _ _ _ _ _ _ _ h
    | exact innerLoop_col_ub _ _ _ _ _ _ _ _ _ _ _ h

/-! ### Closed form of the column -/

/-- Arrival index of a point (`std::rint` of its argument). -/
def Pt.idx (p : Pt F) : Int := (rint p.arg).getD 0

/-- The index conversion of the point is defined. -/
def Pt.castOk (ty : IdxTy) (p : Pt F) : Prop := ∃ i, rint p.arg = some i ∧ ty.fits i = true

/-- Arrival index inside the response. -/
def Pt.inRange (nt : Nat) (p : Pt F) : Bool := decide (0 ≤ p.idx ∧ p.idx < (nt : Int))

theorem Pt.castOk_cast {ty : IdxTy} {p : Pt F} (h : p.castOk ty) :
    castIdx ty (rint p.arg) = .ok p.idx := by
  obtain ⟨i, h1, h2⟩ := h
  simp [castIdx, h1, h2, Pt.idx]

/-- Effect of one in-range point on the column. -/
def Pt.apply (nt : Nat) (att : Option (AttResp F)) (p : Pt F) (c : Nat → F) : Nat → F :=
  match att with
  | none => colAdd p.idx.toNat p.ai c
  | some x => colAtt nt (x p.r p.idx) p.ai c

/-- Effect of a list of in-range points. -/
def applyAll (nt : Nat) (att : Option (AttResp F)) (ps : List (Pt F)) (c : Nat → F) : Nat → F :=
  ps.foldl (fun c p => p.apply nt att c) c

theorem deposit_col (nt : Nat) (ty : IdxTy) (level : ErrorLevel) (att : Option (AttResp F))
    (p : Pt F) (hp : p.castOk ty) (c : Nat → F) (e : SIRError) :
    deposit (colCtx nt ty level att) p (c, e) =
      if p.inRange nt then .ok (.next (p.apply nt att c, e))
      else if oobErr level = .outOfBounds then .ok (.ret (c, .outOfBounds))
      else .ok (.next (c, oobErr level)) := by
  unfold deposit
  have hc := Pt.castOk_cast hp
  have hty : (colCtx nt ty level att).ty = ty := rfl
  rw [hty, hc]
  simp only [Outcome.bind]
  by_cases hr : p.inRange nt
  · rw [if_pos hr]
    have hr' : p.idx < (nt : Int) ∧ p.idx ≥ 0 := by
      simp only [Pt.inRange, decide_eq_true_eq] at hr; omega
    have : (p.idx < ((colCtx nt ty level att).nt : Int) ∧ p.idx ≥ 0) := hr'
    rw [if_pos this]
    cases att <;> rfl
  · rw [if_neg hr]
    have hr' : ¬ (p.idx < (nt : Int) ∧ p.idx ≥ 0) := by
      simp only [Pt.inRange, decide_eq_true_eq] at hr; omega
    have : ¬ (p.idx < ((colCtx nt ty level att).nt : Int) ∧ p.idx ≥ 0) := hr'
    rw [if_neg this]
    have hl : (colCtx nt ty level att).level = level := rfl
    simp only [hl]
    split
    · next h => rw [h]
    · rfl

/-- With a level that does not stop, all in-range points are applied. -/
theorem runPts_continue (nt : Nat) (ty : IdxTy) (level : ErrorLevel) (att : Option (AttResp F))
    (hl : oobErr level ≠ .outOfBounds) (ps : List (Pt F)) (hp : ∀ p ∈ ps, p.castOk ty)
    (c : Nat → F) (e : SIRError) :
    runPts (colCtx nt ty level att) ps (c, e) =
      .ok (.next (applyAll nt att (ps.filter (Pt.inRange nt)) c,
        if ps.all (Pt.inRange nt) then e else oobErr level)) := by
  induction ps generalizing c e with
  | nil => rfl
  | cons p ps ih =>
    simp only [runPts]
    rw [deposit_col nt ty level att p (hp p (by simp)) c e]
    have ih' := ih (fun q hq => hp q (by simp [hq]))
    by_cases hr : p.inRange nt
    · rw [if_pos hr]
      simp only [Outcome.bind]
      rw [ih', List.filter_cons_of_pos hr, List.all_cons, hr, Bool.true_and]
      rfl
    · rw [if_neg hr, if_neg hl]
      simp only [Outcome.bind]
      rw [ih', List.filter_cons_of_neg hr, List.all_cons]
      simp only [Bool.not_eq_true] at hr
      rw [hr, Bool.false_and]
      simp

/-- With a level that stops, the points before the first out-of-range one are applied. -/
theorem runPts_stop (nt : Nat) (ty : IdxTy) (level : ErrorLevel) (att : Option (AttResp F))
    (hl : oobErr level = .outOfBounds) (ps : List (Pt F)) (hp : ∀ p ∈ ps, p.castOk ty)
    (c : Nat → F) (e : SIRError) :
    runPts (colCtx nt ty level att) ps (c, e) =
      .ok (if ps.all (Pt.inRange nt) then .next (applyAll nt att ps c, e)
        else .ret (applyAll nt att (ps.takeWhile (Pt.inRange nt)) c, .outOfBounds)) := by
  induction ps generalizing c e with
  | nil => rfl
  | cons p ps ih =>
    simp only [runPts]
    rw [deposit_col nt ty level att p (hp p (by simp)) c e]
    have ih' := ih (fun q hq => hp q (by simp [hq]))
    by_cases hr : p.inRange nt
    · rw [if_pos hr]
      simp only [Outcome.bind]
      rw [ih', List.takeWhile_cons_of_pos hr, List.all_cons, hr, Bool.true_and]
      split <;> rfl
    · rw [if_neg hr, if_pos hl]
      simp only [Outcome.bind]
      rw [List.takeWhile_cons_of_neg hr, List.all_cons]
      simp only [Bool.not_eq_true] at hr
      rw [hr, Bool.false_and]
      rfl

/-- Pointwise content of a lossless column: contributions are added to the sample they arrive
at, in loop order. -/
theorem applyAll_none (nt : Nat) (ps : List (Pt F)) (hr : ∀ p ∈ ps, p.inRange nt = true)
    (c : Nat → F) (i : Nat) :
    applyAll nt none ps c i =
      ps.foldl (fun s p => if p.idx = (i : Int) then s +. p.ai else s) (c i) := by
  induction ps generalizing c with
  | nil => rfl
  | cons p ps ih =>
    have h1 : p.inRange nt = true := hr p (by simp)
    simp only [Pt.inRange, decide_eq_true_eq] at h1
    simp only [applyAll, List.foldl_cons]
    have := ih (fun q hq => hr q (by simp [hq])) (Pt.apply nt none p c)
    simp only [applyAll] at this
    rw [this]
    congr 1
    simp only [Pt.apply, colAdd]
    by_cases h : p.idx = (i : Int)
    · rw [if_pos h, if_pos (by omega)]
    · rw [if_neg h, if_neg (by omega)]

/-- Pointwise content of a lossy column. -/
theorem applyAll_some (nt : Nat) (x : AttResp F) (ps : List (Pt F)) (c : Nat → F) (i : Nat)
    (hi : i < nt) :
    applyAll nt (some x) ps c i =
      ps.foldl (fun s p => s +. p.ai *. x p.r p.idx i) (c i) := by
  induction ps generalizing c with
  | nil => rfl
  | cons p ps ih =>
    simp only [applyAll, List.foldl_cons]
    have := ih (Pt.apply nt (some x) p c)
    simp only [applyAll] at this
    rw [this]
    congr 1
    simp only [Pt.apply, colAtt]
    rw [if_pos hi]

end Dream
