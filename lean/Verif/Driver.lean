import Verif.KernelTask
import Verif.Drv

/-
Threaded drivers of the SIR functions (dreamrect, dreamcirc, dreamline, dreamrect_f,
dreamcirc_f, dreamsphere, dreamcylind): arguments, reading of the inputs of one observation
point, worker program, driver result, host-language wrapper.
-/

namespace Dream
open Arith

variable {F : Type} [Arith F]

/-- Arguments of a driver call such as `Rect::dreamrect` (src/dreamrect.cc 169-176): which
transducer, parameters (the `delay` field of `p` is not used), attenuation, response length,
error level, observation points `Ro` (column-major `No`×3), delays. -/
structure SirCall (F : Type) where
  k : Kern F
  p : Par F
  att : Option (AttResp F)
  nt : Nat
  ty : IdxTy
  level : ErrorLevel
  No : Nat
  Ro : Buf F
  delayType : DelayType
  delay : Buf F

namespace SirCall

/-- Reading of observation point and delay, src/dreamrect.cc 105-115. -/
def inputs (D : SirCall F) (n : Nat) : Outcome (F × F × F × F) :=
  (D.Ro.read (n : Int)).bind fun xo =>
  (D.Ro.read ((n + 1 * D.No : Nat) : Int)).bind fun yo =>
  (D.Ro.read ((n + 2 * D.No : Nat) : Int)).bind fun zo =>
  (D.delay.read (match D.delayType with | .single => 0 | .multiple => (n : Int))).bind fun d =>
  .ok (xo, yo, zo, d)

/-- The call of the serial kernel for observation point `n` on output matrix `m`,
src/dreamrect.cc 128-142. -/
def serialAt (D : SirCall F) (n fuel : Nat) (m : Buf F) : Outcome (Buf F × SIRError) :=
  (D.inputs n).bind fun (xo, yo, zo, d) =>
    D.k.serial D.nt D.ty D.level D.att { D.p with delay := d } xo yo zo fuel (n * D.nt) m

/-- The worker program. -/
def task (D : SirCall F) : Task F (KLoc F) :=
  effTask
    (fun n => (D.inputs n).map fun (xo, yo, zo, d) => D.k.entry { D.p with delay := d } xo yo zo)
    (fun _ => kernStep D.nt D.ty D.level D.att) (fun n => n * D.nt)

/-- The argument buffers have the sizes the argument checks of the wrappers are meant to
ensure: three coordinates per point, one delay or one per point, output `nt` by `No`. -/
structure Sized (D : SirCall F) (m : Buf F) : Prop where
  ro : D.Ro.size = 3 * D.No
  delay : D.delay.size = match D.delayType with | .single => 1 | .multiple => D.No
  out : m.size = D.No * D.nt

/-- A complete run of the driver with `nth` workers on output matrix `m` under schedule `as`:
all workers have returned in state `s'`. -/
def Run (D : SirCall F) (nth : Nat) (m : Buf F) (as : List Act) (s' : Sys F (KLoc F)) : Prop :=
  exec D.task as (initSys D.No nth m) = .ok s' ∧ s'.allDone nth

/-- `e` is the code the serial kernel returns for observation point `n`. -/
def PointErr (D : SirCall F) (m : Buf F) (n : Nat) (e : SIRError) : Prop :=
  ∃ fuel m', D.serialAt n fuel m = .ok (m', e)

/-- Every observation point, taken alone, is computed without undefined behaviour in finite
time. -/
def Defined (D : SirCall F) (m : Buf F) : Prop :=
  ∀ n, n < D.No → ∃ fuel r, D.serialAt n fuel m = .ok r

end SirCall

/-! ### Error codes of a kernel -/

theorem deposit_err {M : Type} (c : Ctx F M) (p : Pt F) (s : M × SIRError)
    (r : Ctl (M × SIRError)) (h : deposit c p s = .ok r)
    (hs : s.2 = .none ∨ s.2 = oobErr c.level) : r.val.2 = .none ∨ r.val.2 = oobErr c.level := by
  unfold deposit at h
  cases hc : castIdx c.ty (rint p.arg) with
  | ub e => rw [hc] at h; simp at h
  | fuel => rw [hc] at h; simp at h
  | ok it =>
    rw [hc] at h
    simp only [Outcome.bind] at h
    split at h
    · cases ha : c.act p.r it p.ai s.1 with
      | ok m => rw [ha] at h; simp only [Outcome.ok.injEq] at h; subst h; exact hs
      | ub e => rw [ha] at h; simp at h
      | fuel => rw [ha] at h; simp at h
    · split at h
      · simp only [Outcome.ok.injEq] at h; subst h; exact Or.inr rfl
      · simp only [Outcome.ok.injEq] at h; subst h; exact Or.inr rfl

theorem innerLoop_err {M : Type} (c : Ctx F M) (pt : F → Pt F) (dx xmax : F) (n : Nat) (x : F)
    (s : M × SIRError) (r : Ctl (M × SIRError)) (h : innerLoop c pt dx xmax n x s = .ok r)
    (hs : s.2 = .none ∨ s.2 = oobErr c.level) : r.val.2 = .none ∨ r.val.2 = oobErr c.level := by
  induction n generalizing x s with
  | zero => simp [innerLoop] at h
  | succ n ih =>
    unfold innerLoop at h
    split at h
    · cases hd : deposit c (pt x) s with
      | ok q =>
        rw [hd] at h
        have := deposit_err c _ s q hd hs
        cases q with
        | next s' => exact ih _ _ h this
        | ret s' => simp only [Outcome.bind, Outcome.ok.injEq] at h; subst h; exact this
      | ub e => rw [hd] at h; simp at h
      | fuel => rw [hd] at h; simp at h
    · simp only [Outcome.ok.injEq] at h; subst h; exact hs

theorem outerLoop_err {M : Type} (c : Ctx F M) (row : F → Row F) (dx dy ymax : F)
    (fuel n : Nat) (y : F) (s : M × SIRError) (r : Ctl (M × SIRError))
    (h : outerLoop c row dx dy ymax fuel n y s = .ok r)
    (hs : s.2 = .none ∨ s.2 = oobErr c.level) : r.val.2 = .none ∨ r.val.2 = oobErr c.level := by
  induction n generalizing y s with
  | zero => simp [outerLoop] at h
  | succ n ih =>
    unfold outerLoop at h
    split at h
    · cases hd : innerLoop c (row y).pt dx (row y).xmax fuel (row y).x0 s with
      | ok q =>
        rw [hd] at h
        have := innerLoop_err c _ _ _ _ _ s q hd hs
        cases q with
        | next s' => exact ih _ _ h this
        | ret s' => simp only [Outcome.bind, Outcome.ok.injEq] at h; subst h; exact this
      | ub e => rw [hd] at h; simp at h
      | fuel => rw [hd] at h; simp at h
    · simp only [Outcome.ok.injEq] at h; subst h; exact hs

/-- A kernel returns `none` or the code of its error level. -/
theorem Kern.onCol_err (k : Kern F) (nt : Nat) (ty : IdxTy) (level : ErrorLevel)
    (att : Option (AttResp F)) (p : Par F) (xo yo zo : F) (fuel : Nat) (c : Nat → F)
    (r : (Nat → F) × SIRError) (h : k.onCol nt ty level att p xo yo zo fuel c = .ok r) :
    r.2 = .none ∨ r.2 = oobErr level := by
  have h0 : oobErr (colCtx nt ty level att).level = oobErr level := rfl
  cases k <;> simp only [Kern.onCol, runSweep, runRow] at h <;>
    obtain ⟨q, hq, hr⟩ := finish_ok h <;> rw [← hr, ← h0] <;>
    first
    | exact outerLoop_err _ _ _ _ _ _ _ _ _ _ hq (Or.inl rfl)
    | exact innerLoop_err _ _ _ _ _ _ _ _ hq (Or.inl rfl)

/-- The serial form of `Kern.onCol_err`. -/
theorem Kern.serial_err (k : Kern F) (nt : Nat) (ty : IdxTy) (level : ErrorLevel)
    (att : Option (AttResp F)) (p : Par F) (xo yo zo : F) (fuel base : Nat) (m : Buf F)
    (hb : base + nt ≤ m.size) (r : Buf F × SIRError)
    (h : k.serial nt ty level att p xo yo zo fuel base m = .ok r) :
    r.2 = .none ∨ r.2 = oobErr level := by
  rw [Kern.serial_eq _ _ _ _ _ _ _ _ _ _ _ _ hb] at h
  cases hq : k.onCol nt ty level att p xo yo zo fuel (m.getCol base nt) with
  | ok q =>
    rw [hq] at h
    simp only [Outcome.map, Outcome.ok.injEq] at h
    rw [← h]
    exact Kern.onCol_err k nt ty level att p xo yo zo fuel _ q hq
  | ub e => rw [hq] at h; simp [Outcome.map] at h
  | fuel => rw [hq] at h; simp [Outcome.map] at h

/-! ### The driver as a job -/

namespace SirCall
variable {D : SirCall F} {m : Buf F}

omit [Arith F] in
theorem inputs_defined (hs : D.Sized m) (n : Nat) (hn : n < D.No) :
    ∃ r, D.inputs n = .ok r := by
  unfold inputs Buf.read
  have h1 := hs.ro
  have h2 := hs.delay
  rw [if_pos (by omega)]
  simp only [Outcome.bind]
  rw [if_pos (by omega)]
  simp only
  rw [if_pos (by omega)]
  simp only
  cases hd : D.delayType with
  | single => rw [hd] at h2; simp only at h2; simp [h2]
  | multiple => rw [hd] at h2; simp only at h2; simp [h2, hn]

theorem serialAt_col (hout : D.No * D.nt ≤ m.size) (n : Nat) (hn : n < D.No) (fuel : Nat)
    (r : Buf F × SIRError)
    (h : D.serialAt n fuel m = .ok r) :
    ∃ l c, D.task.begin n = .ok l ∧ r = (m.setCol (n * D.nt) D.nt c, r.2) ∧
      (∃ j, Evals (kernCol D.nt D.ty D.level D.att) n j l (m.getCol (n * D.nt) D.nt) (c, r.2)) ∧
      (r.2 = .none ∨ r.2 = oobErr D.level) := by
  unfold serialAt at h
  cases hi : D.inputs n with
  | ub e => rw [hi] at h; simp at h
  | fuel => rw [hi] at h; simp at h
  | ok v =>
    obtain ⟨xo, yo, zo, d⟩ := v
    rw [hi] at h
    simp only [Outcome.bind] at h
    have hb : n * D.nt + D.nt ≤ m.size := by
      have : (n + 1) * D.nt ≤ D.No * D.nt := Nat.mul_le_mul_right _ hn
      rw [Nat.add_mul, Nat.one_mul] at this
      omega
    rw [Kern.serial_eq _ _ _ _ _ _ _ _ _ _ _ _ hb] at h
    rw [Outcome.map_eq_ok] at h
    obtain ⟨q, hq, hr⟩ := h
    refine ⟨D.k.entry { D.p with delay := d } xo yo zo, q.1, ?_, ?_, ?_, ?_⟩
    · simp [task, effTask, hi]
    · rw [← hr]; rfl
    · rw [← hr]
      exact Kern.evals _ _ _ _ n _ _ _ _ _ _ _ _ hq
    · rw [← hr]
      exact Kern.onCol_err _ _ _ _ _ _ _ _ _ _ _ _ hq

theorem cols_disj (nt i j : Nat) (h : i ≠ j) :
    i * nt + nt ≤ j * nt ∨ j * nt + nt ≤ i * nt := by
  have key : ∀ a b : Nat, a < b → a * nt + nt ≤ b * nt := by
    intro a b hab
    have : (a + 1) * nt ≤ b * nt := Nat.mul_le_mul_right _ hab
    rw [Nat.add_mul, Nat.one_mul] at this
    exact this
  rcases Nat.lt_or_gt_of_ne h with h1 | h1
  · exact Or.inl (key _ _ h1)
  · exact Or.inr (key _ _ h1)

/-- The driver of a SIR function. -/
def drv (D : SirCall F) : Drv F (KLoc F) where
  No := D.No
  len := D.nt
  base := fun n => n * D.nt
  level := D.level
  begin := fun n => (D.inputs n).map fun (xo, yo, zo, d) => D.k.entry { D.p with delay := d } xo yo zo
  step := fun _ => kernStep D.nt D.ty D.level D.att
  serialAt := D.serialAt

theorem faithful (hs : D.Sized m) : D.drv.Faithful m where
  prog := fun n hn fuel r h => serialAt_col (by rw [hs.out]; exact Nat.le_refl _) n hn fuel r h
  inside := by
    intro n hn
    have : (n + 1) * D.nt ≤ D.No * D.nt := Nat.mul_le_mul_right _ hn
    rw [Nat.add_mul, Nat.one_mul] at this
    show n * D.nt + D.nt ≤ m.size
    rw [hs.out]
    omega
  disj := fun i j _ _ hij => cols_disj D.nt i j hij

end SirCall

end Dream
