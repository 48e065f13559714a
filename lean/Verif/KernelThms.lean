import Verif.Kernel

/-
Theory of the kernel skeleton for an arbitrary arithmetic: simulation between memories,
column locality, and the list of surface points visited.
-/

namespace Dream
open Arith

variable {F M M₁ M₂ : Type} [Arith F]

/-! ### Simulation between memories -/

/-- Apply a memory map to a loop state. -/
def Ctl.map {σ τ : Type} (f : σ → τ) : Ctl σ → Ctl τ
  | .next s => .next (f s)
  | .ret s => .ret (f s)

/-- `φ` translates the actions of `c₂` into those of `c₁`. -/
structure Sim (c₁ : Ctx F M₁) (c₂ : Ctx F M₂) (φ : M₂ → M₁) : Prop where
  nt : c₁.nt = c₂.nt
  ty : c₁.ty = c₂.ty
  level : c₁.level = c₂.level
  act : ∀ r it ai m, 0 ≤ it → it < (c₂.nt : Int) →
    c₁.act r it ai (φ m) = (c₂.act r it ai m).map φ

def liftS (φ : M₂ → M₁) (s : M₂ × SIRError) : M₁ × SIRError := (φ s.1, s.2)

theorem deposit_sim {c₁ : Ctx F M₁} {c₂ : Ctx F M₂} {φ : M₂ → M₁} (h : Sim c₁ c₂ φ)
    (p : Pt F) (s : M₂ × SIRError) :
    deposit c₁ p (liftS φ s) = (deposit c₂ p s).map (Ctl.map (liftS φ)) := by
  unfold deposit
  rw [h.ty, h.nt, h.level]
  cases hc : castIdx c₂.ty (rint p.arg) with
  | ok it =>
    simp only [Outcome.bind]
    by_cases hr : it < (c₂.nt : Int) ∧ it ≥ 0
    · rw [if_pos hr, if_pos hr]
      have := h.act p.r it p.ai s.1 hr.2 hr.1
      simp only [liftS]
      rw [this]
      cases c₂.act p.r it p.ai s.1 <;> rfl
    · rw [if_neg hr, if_neg hr]
      split <;> rfl
  | ub e => rfl
  | fuel => rfl

theorem innerLoop_sim {c₁ : Ctx F M₁} {c₂ : Ctx F M₂} {φ : M₂ → M₁} (h : Sim c₁ c₂ φ)
    (pt : F → Pt F) (dx xmax : F) (n : Nat) (xs : F) (s : M₂ × SIRError) :
    innerLoop c₁ pt dx xmax n xs (liftS φ s) =
      (innerLoop c₂ pt dx xmax n xs s).map (Ctl.map (liftS φ)) := by
  induction n generalizing xs s with
  | zero => rfl
  | succ n ih =>
    unfold innerLoop
    by_cases hx : le xs xmax
    · rw [if_pos hx, if_pos hx, deposit_sim h]
      cases deposit c₂ (pt xs) s with
      | ok k =>
        cases k with
        | next s' => exact ih (xs +. dx) s'
        | ret s' => rfl
      | ub e => rfl
      | fuel => rfl
    · rw [if_neg hx, if_neg hx]; rfl

theorem outerLoop_sim {c₁ : Ctx F M₁} {c₂ : Ctx F M₂} {φ : M₂ → M₁} (h : Sim c₁ c₂ φ)
    (row : F → Row F) (dx dy ymax : F) (fuel n : Nat) (ys : F) (s : M₂ × SIRError) :
    outerLoop c₁ row dx dy ymax fuel n ys (liftS φ s) =
      (outerLoop c₂ row dx dy ymax fuel n ys s).map (Ctl.map (liftS φ)) := by
  induction n generalizing ys s with
  | zero => rfl
  | succ n ih =>
    unfold outerLoop
    by_cases hy : le ys ymax
    · rw [if_pos hy, if_pos hy, innerLoop_sim h]
      cases innerLoop c₂ (row ys).pt dx (row ys).xmax fuel (row ys).x0 s with
      | ok k =>
        cases k with
        | next s' => exact ih (ys +. dy) s'
        | ret s' => rfl
      | ub e => rfl
      | fuel => rfl
    · rw [if_neg hy, if_neg hy]; rfl

theorem finish_map (φ : M₂ → M₁) (x : Outcome (Ctl (M₂ × SIRError))) :
    finish (x.map (Ctl.map (liftS φ))) = (finish x).map (liftS φ) := by
  cases x with
  | ok k => cases k <;> rfl
  | ub e => rfl
  | fuel => rfl

theorem runSweep_sim {c₁ : Ctx F M₁} {c₂ : Ctx F M₂} {φ : M₂ → M₁} (h : Sim c₁ c₂ φ)
    (g : Sweep F) (fuel : Nat) (m : M₂) :
    runSweep c₁ g fuel (φ m) = (runSweep c₂ g fuel m).map (liftS φ) := by
  unfold runSweep
  have := outerLoop_sim h g.row g.dx g.dy g.ymax fuel fuel g.y0 (m, SIRError.none)
  simp only [liftS] at this
  rw [this, ← finish_map]

theorem runRow_sim {c₁ : Ctx F M₁} {c₂ : Ctx F M₂} {φ : M₂ → M₁} (h : Sim c₁ c₂ φ)
    (row : Row F) (dx : F) (fuel : Nat) (m : M₂) :
    runRow c₁ row dx fuel (φ m) = (runRow c₂ row dx fuel m).map (liftS φ) := by
  unfold runRow
  have := innerLoop_sim h row.pt dx row.xmax fuel row.x0 (m, SIRError.none)
  simp only [liftS] at this
  rw [this, ← finish_map]

/-! ### Columns -/

namespace Buf

/-- The column of `m` of length `nt` starting at `base` (padded with zeros so that it carries
no information about other columns). -/
def getCol (m : Buf F) (base nt : Nat) : Nat → F :=
  fun i => if i < nt then m.data (base + i) else lit 0

/-- Replace `nt` entries of `m` starting at `base`. -/
def setCol (m : Buf F) (base nt : Nat) (c : Nat → F) : Buf F :=
  { m with data := fun i => if base ≤ i ∧ i < base + nt then c (i - base) else m.data i }

omit [Arith F] in
@[simp] theorem setCol_size (m : Buf F) (base nt : Nat) (c : Nat → F) :
    (m.setCol base nt c).size = m.size := rfl

theorem setCol_getCol (m : Buf F) (base nt : Nat) : m.setCol base nt (m.getCol base nt) = m := by
  cases m with
  | mk size data =>
    simp only [setCol, getCol]
    congr 1
    funext i
    split
    · rw [if_pos (by omega)]; congr 1; omega
    · rfl

theorem getCol_setCol_self (m : Buf F) (base nt : Nat) (c : Nat → F) :
    (m.setCol base nt c).getCol base nt = fun i => if i < nt then c i else lit 0 := by
  funext i
  simp only [getCol, setCol]
  by_cases h : i < nt
  · rw [if_pos h, if_pos h, if_pos (by omega)]; congr 1; omega
  · rw [if_neg h, if_neg h]

theorem getCol_setCol_other (m : Buf F) (b₁ b₂ nt : Nat) (c : Nat → F)
    (h : b₁ + nt ≤ b₂ ∨ b₂ + nt ≤ b₁) :
    (m.setCol b₁ nt c).getCol b₂ nt = m.getCol b₂ nt := by
  funext i
  simp only [getCol, setCol]
  by_cases hi : i < nt
  · rw [if_pos hi, if_pos hi, if_neg (by omega)]
  · rw [if_neg hi, if_neg hi]

omit [Arith F] in
theorem setCol_data_out (m : Buf F) (base nt : Nat) (c : Nat → F) (i : Nat)
    (h : i < base ∨ base + nt ≤ i) : (m.setCol base nt c).data i = m.data i := by
  simp only [setCol]
  rw [if_neg (by omega)]

omit [Arith F] in
theorem setCol_data_in (m : Buf F) (base nt : Nat) (c : Nat → F) (i : Nat) (h : i < nt) :
    (m.setCol base nt c).data (base + i) = c i := by
  simp only [setCol]
  rw [if_pos (by omega)]
  congr 1; omega

end Buf

/-- Column version of `h[it] += ai`. -/
def colAdd (it : Nat) (ai : F) (c : Nat → F) : Nat → F :=
  fun i => if i = it then c i +. ai else c i

/-- Column version of the lossy update. -/
def colAtt (nt : Nat) (x : Nat → F) (ai : F) (c : Nat → F) : Nat → F :=
  fun i => if i < nt then c i +. ai *. x i else c i

/-- The loop tail acting on a column held as a function. -/
def colCtx (nt : Nat) (ty : IdxTy) (level : ErrorLevel) (att : Option (AttResp F)) :
    Ctx F (Nat → F) where
  nt := nt
  ty := ty
  level := level
  act := fun r it ai c =>
    .ok (match att with
      | none => colAdd it.toNat ai c
      | some x => colAtt nt (x r it) ai c)

theorem addAt_setCol (m : Buf F) (base nt : Nat) (c : Nat → F) (it : Nat) (ai : F)
    (hb : base + nt ≤ m.size) (hit : it < nt) :
    addAt base (it : Int) ai (m.setCol base nt c) = .ok (m.setCol base nt (colAdd it ai c)) := by
  unfold addAt Buf.read Buf.write
  have h1 : (0 : Int) ≤ (base : Int) + (it : Int) ∧
      (base : Int) + (it : Int) < ((m.setCol base nt c).size : Int) := by
    simp only [Buf.setCol_size]; omega
  rw [if_pos h1]
  simp only [Outcome.bind]
  rw [if_pos h1]
  congr 1
  have h2 : ((base : Int) + (it : Int)).toNat = base + it := by omega
  rw [h2, Buf.setCol_data_in _ _ _ _ _ hit]
  simp only [Buf.setCol, colAdd]
  congr 1
  funext j
  by_cases hj : j = base + it
  · subst hj
    rw [if_pos rfl, if_pos (by omega), if_pos (by omega)]
    congr 2
    omega
  · rw [if_neg hj]
    by_cases hr : base ≤ j ∧ j < base + nt
    · rw [if_pos hr, if_pos hr, if_neg (by omega)]
    · rw [if_neg hr, if_neg hr]

theorem attAdd_setCol (m : Buf F) (base nt : Nat) (c : Nat → F) (x : Nat → F) (ai : F)
    (hb : base + nt ≤ m.size) (n : Nat) (hn : n ≤ nt) :
    attAdd base x ai n (m.setCol base nt c) = .ok (m.setCol base nt (colAtt n x ai c)) := by
  induction n with
  | zero =>
    simp only [attAdd]
    congr 2
  | succ n ih =>
    simp only [attAdd]
    rw [ih (by omega)]
    simp only [Outcome.bind]
    rw [addAt_setCol _ _ _ _ _ _ hb (by omega)]
    congr 2
    funext i
    simp only [colAdd, colAtt]
    by_cases h1 : i = n
    · subst h1
      simp
    · rw [if_neg h1]
      by_cases h2 : i < n
      · rw [if_pos h2, if_pos (by omega)]
      · rw [if_neg h2, if_neg (by omega)]

theorem clearCol_setCol (m : Buf F) (base nt : Nat) (c : Nat → F)
    (hb : base + nt ≤ m.size) (n : Nat) (hn : n ≤ nt) :
    clearCol base n (m.setCol base nt c) =
      .ok (m.setCol base nt (fun i => if i < n then lit 0 else c i)) := by
  induction n with
  | zero => simp [clearCol]
  | succ n ih =>
    simp only [clearCol]
    rw [ih (by omega)]
    simp only [Outcome.bind, Buf.write]
    rw [if_pos (by simp only [Buf.setCol_size]; omega)]
    congr 1
    have h2 : ((base : Int) + (n : Int)).toNat = base + n := by omega
    rw [h2]
    simp only [Buf.setCol]
    congr 1
    funext j
    by_cases hj : j = base + n
    · rw [if_pos hj, if_pos (by omega), if_pos (by omega)]
    · rw [if_neg hj]
      by_cases hr : base ≤ j ∧ j < base + nt
      · rw [if_pos hr, if_pos hr]
        by_cases h3 : j - base < n
        · rw [if_pos h3, if_pos (by omega)]
        · rw [if_neg h3, if_neg (by omega)]
      · rw [if_neg hr, if_neg hr]

/-- The flat context simulates the column context. -/
theorem flat_sim (nt : Nat) (ty : IdxTy) (level : ErrorLevel) (att : Option (AttResp F))
    (base : Nat) (m : Buf F) (hb : base + nt ≤ m.size) :
    Sim (flatCtx nt ty level att base) (colCtx nt ty level att) (m.setCol base nt) where
  nt := rfl
  ty := rfl
  level := rfl
  act := by
    intro r it ai c h0 h1
    have h1' : it < (nt : Int) := h1
    obtain ⟨k, rfl⟩ := Int.eq_ofNat_of_zero_le h0
    cases att with
    | none =>
      simp only [flatCtx, colCtx, Outcome.map]
      rw [addAt_setCol m base nt c k ai hb (by omega)]
      simp
    | some x =>
      simp only [flatCtx, colCtx, Outcome.map]
      rw [attAdd_setCol m base nt c _ ai hb nt (Nat.le_refl _)]

/-! ### The points visited -/

/-- Positions visited by `while (x <= xmax) { ...; x += dx; }`, or `none` if the loop has not
ended after `n` tests. -/
def visits (dx xmax : F) : Nat → F → Option (List F)
  | 0, _ => none
  | n + 1, x =>
    if le x xmax then (visits dx xmax n (x +. dx)).map (x :: ·) else some []

/-- Points of one row, in loop order. -/
def Row.points (row : Row F) (dx : F) (fuel : Nat) : Option (List (Pt F)) :=
  (visits dx row.xmax fuel row.x0).map (List.map row.pt)

/-- Points of the rows at the given positions, in loop order. -/
def rowsPoints (row : F → Row F) (dx : F) (fuel : Nat) : List F → Option (List (Pt F))
  | [] => some []
  | y :: ys =>
    match (row y).points dx fuel, rowsPoints row dx fuel ys with
    | some a, some b => some (a ++ b)
    | _, _ => none

/-- All points of a sweep, in loop order. -/
def Sweep.points (g : Sweep F) (fuel : Nat) : Option (List (Pt F)) :=
  (visits g.dy g.ymax fuel g.y0).bind (rowsPoints g.row g.dx fuel)

/-- Process a list of points as the loops do. -/
def runPts (c : Ctx F M) : List (Pt F) → M × SIRError → Outcome (Ctl (M × SIRError))
  | [], s => .ok (.next s)
  | p :: ps, s =>
    (deposit c p s).bind fun
      | .next s' => runPts c ps s'
      | .ret s' => .ok (.ret s')

theorem runPts_append (c : Ctx F M) (a b : List (Pt F)) (s : M × SIRError) :
    runPts c (a ++ b) s = (runPts c a s).bind fun
      | .next s' => runPts c b s'
      | .ret s' => .ok (.ret s') := by
  induction a generalizing s with
  | nil => rfl
  | cons p ps ih =>
    simp only [List.cons_append, runPts]
    cases deposit c p s with
    | ok k =>
      cases k with
      | next s' => exact ih s'
      | ret s' => rfl
    | ub e => rfl
    | fuel => rfl

theorem innerLoop_eq_runPts (c : Ctx F M) (pt : F → Pt F) (dx xmax : F) (n : Nat) (x : F)
    (l : List F) (h : visits dx xmax n x = some l) (s : M × SIRError) :
    innerLoop c pt dx xmax n x s = runPts c (l.map pt) s := by
  induction n generalizing x l s with
  | zero => simp [visits] at h
  | succ n ih =>
    unfold visits at h
    unfold innerLoop
    by_cases hx : le x xmax
    · rw [if_pos hx] at h
      rw [if_pos hx]
      cases hv : visits dx xmax n (x +. dx) with
      | none => rw [hv] at h; simp at h
      | some l' =>
        rw [hv] at h
        simp only [Option.map_some, Option.some.injEq] at h
        subst h
        simp only [List.map_cons, runPts]
        cases deposit c (pt x) s with
        | ok k =>
          cases k with
          | next s' => exact ih _ _ hv s'
          | ret s' => rfl
        | ub e => rfl
        | fuel => rfl
    · rw [if_neg hx] at h
      rw [if_neg hx]
      simp only [Option.some.injEq] at h
      subst h
      rfl

theorem outerLoop_eq_runPts (c : Ctx F M) (row : F → Row F) (dx dy ymax : F) (fuel n : Nat)
    (y : F) (l : List F) (ps : List (Pt F)) (h : visits dy ymax n y = some l)
    (hp : rowsPoints row dx fuel l = some ps) (s : M × SIRError) :
    outerLoop c row dx dy ymax fuel n y s = runPts c ps s := by
  induction n generalizing y l ps s with
  | zero => simp [visits] at h
  | succ n ih =>
    unfold visits at h
    unfold outerLoop
    by_cases hy : le y ymax
    · rw [if_pos hy] at h
      rw [if_pos hy]
      cases hv : visits dy ymax n (y +. dy) with
      | none => rw [hv] at h; simp at h
      | some l' =>
        rw [hv] at h
        simp only [Option.map_some, Option.some.injEq] at h
        subst h
        simp only [rowsPoints] at hp
        cases hr : (row y).points dx fuel with
        | none => rw [hr] at hp; simp at hp
        | some a =>
          cases hr2 : rowsPoints row dx fuel l' with
          | none => rw [hr, hr2] at hp; simp at hp
          | some b =>
            rw [hr, hr2] at hp
            simp only [Option.some.injEq] at hp
            subst hp
            rw [runPts_append]
            unfold Row.points at hr
            cases hv2 : visits dx (row y).xmax fuel (row y).x0 with
            | none => rw [hv2] at hr; simp at hr
            | some lx =>
              rw [hv2] at hr
              simp only [Option.map_some, Option.some.injEq] at hr
              subst hr
              rw [innerLoop_eq_runPts c _ _ _ _ _ _ hv2]
              cases runPts c (lx.map (row y).pt) s with
              | ok k =>
                cases k with
                | next s' => exact ih _ _ _ hv hr2 s'
                | ret s' => rfl
              | ub e => rfl
              | fuel => rfl
    · rw [if_neg hy] at h
      rw [if_neg hy]
      simp only [Option.some.injEq] at h
      subst h
      simp only [rowsPoints, Option.some.injEq] at hp
      subst hp
      rfl

theorem runSweep_eq_runPts (c : Ctx F M) (g : Sweep F) (fuel : Nat) (ps : List (Pt F))
    (h : g.points fuel = some ps) (m : M) :
    runSweep c g fuel m = finish (runPts c ps (m, .none)) := by
  unfold Sweep.points at h
  unfold runSweep
  cases hv : visits g.dy g.ymax fuel g.y0 with
  | none => rw [hv] at h; simp at h
  | some l =>
    rw [hv] at h
    simp only [Option.bind_some] at h
    rw [outerLoop_eq_runPts c g.row g.dx g.dy g.ymax fuel fuel g.y0 l ps hv h]

theorem runRow_eq_runPts (c : Ctx F M) (row : Row F) (dx : F) (fuel : Nat) (ps : List (Pt F))
    (h : row.points dx fuel = some ps) (m : M) :
    runRow c row dx fuel m = finish (runPts c ps (m, .none)) := by
  unfold Row.points at h
  unfold runRow
  cases hv : visits dx row.xmax fuel row.x0 with
  | none => rw [hv] at h; simp at h
  | some l =>
    rw [hv] at h
    simp only [Option.map_some, Option.some.injEq] at h
    subst h
    rw [innerLoop_eq_runPts c _ _ _ _ _ _ hv]

end Dream
