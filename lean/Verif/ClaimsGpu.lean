import Verif.Gpu
import Verif.ClaimsThreads
import Verif.Toy

/-
C40: the OpenCL kernels compute what the CPU kernels compute.
-/

namespace Dream
open Arith

variable {F : Type} [Arith F]

/-! ### Comparing the two kinds of loops -/

/-- The GPU loop (result `g`) and the CPU loop (result `x`) agree: both end with the same column, or
both are still running; or the GPU's 32-bit conversion fails; or the index type is unsigned and the
CPU's conversion fails (negative index). -/
def Agree (ty : IdxTy) (g : Outcome ((Nat → F) × Unit))
    (x : Outcome (Ctl ((Nat → F) × SIRError))) : Prop :=
  (∃ c e, g = .ok (c, ()) ∧ x = .ok (.next (c, e))) ∨ g = .ub .cast ∨
  (ty = .unsigned ∧ x = .ub .cast) ∨ (g = .fuel ∧ x = .fuel)

theorem fits_of_int32 {i j : Int} (h : int32 i = .ok j) : j = i ∧ IdxTy.signed.fits i = true := by
  unfold int32 at h
  split at h
  · next h1 =>
    simp only [Outcome.ok.injEq] at h
    refine ⟨h.symm, ?_⟩
    simp only [IdxTy.fits, decide_eq_true_eq]
    have e2 : (2 : Int) ^ 63 = 9223372036854775808 := by decide
    rw [e2]
    omega
  · simp at h

theorem int32_cases (i : Int) : int32 i = .ok i ∨ int32 i = .ub .cast := by
  unfold int32; split <;> simp

theorem clBody_agree (A : ClArgs F) (ty : IdxTy) (level : ErrorLevel)
    (hl : oobErr level ≠ .outOfBounds) (xo ry zo ds xs : F) (p : Pt F)
    (hai : p.ai = amp A.v ds (dist3 (xo -. xs) ry zo) A.dt)
    (harg : p.arg = arrival (dist3 (xo -. xs) ry zo) A.cp A.delay A.dt) (c : Nat → F) (e : SIRError) :
    Agree ty ((clBody A xo ry zo ds xs).runCol A.nt c)
      (deposit (colCtx A.nt ty level none) p (c, e)) := by
  unfold clBody deposit
  dsimp only
  rw [Prog.runCol_bind, Prog.runCol_lift, harg]
  unfold arrival dist3 at *
  generalize hR : rint ((sqrt ((xo -. xs) *. (xo -. xs) +. ry *. ry +. zo *. zo) *. lit 1000 /. A.cp
    -. A.delay) /. A.dt) = R
  cases R with
  | none => exact .inr (.inl rfl)
  | some i =>
    rcases int32_cases i with h | h
    · have hf := (fits_of_int32 h).2
      have hc : castIdx (colCtx A.nt ty level (none : Option (AttResp F))).ty (some i) = .ok i ∨
          (ty = .unsigned ∧ castIdx (colCtx A.nt ty level (none : Option (AttResp F))).ty (some i) =
            .ub .cast) := by
        show castIdx ty (some i) = _ ∨ (_ ∧ castIdx ty (some i) = _)
        cases ty with
        | signed => left; simp [castIdx, hf]
        | unsigned =>
          by_cases h2 : IdxTy.unsigned.fits i
          · left; simp [castIdx, h2]
          · right; simp [castIdx, h2]
      simp only [castInt, h, Outcome.map, Outcome.bind]
      rcases hc with hc | ⟨h1, hc⟩
      · rw [hc]
        simp only
        by_cases hr : i < (A.nt : Int) ∧ i ≥ 0
        · left
          refine ⟨colAdd i.toNat p.ai c, e, ?_, ?_⟩
          · rw [if_pos hr]
            simp only [Prog.runCol]
            rw [if_pos (by omega), if_pos (by omega)]
            congr 2
            funext q
            simp only [colAdd]
            by_cases hq : q = i.toNat
            · rw [if_pos hq, if_pos hq, hai, hq]; rfl
            · rw [if_neg hq, if_neg hq]
          · have : i < ((colCtx A.nt ty level (none : Option (AttResp F))).nt : Int) ∧ i ≥ 0 := hr
            rw [if_pos this]
            rfl
        · left
          refine ⟨c, oobErr level, ?_, ?_⟩
          · rw [if_neg hr]; rfl
          · have : ¬ (i < ((colCtx A.nt ty level (none : Option (AttResp F))).nt : Int) ∧ i ≥ 0) := hr
            rw [if_neg this]
            have h3 : (colCtx A.nt ty level (none : Option (AttResp F))).level = level := rfl
            rw [h3, if_neg hl]
      · rw [hc]
        exact .inr (.inr (.inl ⟨h1, rfl⟩))
    · simp only [castInt, h, Outcome.map, Outcome.bind]
      exact .inr (.inl rfl)

theorem clInner_agree (A : ClArgs F) (ty : IdxTy) (level : ErrorLevel)
    (hl : oobErr level ≠ .outOfBounds) (xo ry zo ds xmax : F) (pt : F → Pt F)
    (hai : ∀ xs, (pt xs).ai = amp A.v ds (dist3 (xo -. xs) ry zo) A.dt)
    (harg : ∀ xs, (pt xs).arg = arrival (dist3 (xo -. xs) ry zo) A.cp A.delay A.dt) (n : Nat) :
    ∀ (xs : F) (c : Nat → F) (e : SIRError),
    Agree ty ((clInner A xo ry zo ds xmax n xs).runCol A.nt c)
      (innerLoop (colCtx A.nt ty level none) pt A.dx xmax n xs (c, e)) := by
  induction n with
  | zero => intro xs c e; exact .inr (.inr (.inr ⟨rfl, rfl⟩))
  | succ n ih =>
    intro xs c e
    simp only [clInner, innerLoop]
    by_cases hx : le xs xmax = true
    · rw [if_pos hx, if_pos hx, Prog.runCol_bind]
      rcases clBody_agree A ty level hl xo ry zo ds xs (pt xs) (hai xs) (harg xs) c e with
        ⟨c', e', h1, h2⟩ | h1 | ⟨h1, h2⟩ | ⟨h1, h2⟩
      · rw [h1, h2]; exact ih _ _ _
      · rw [h1]; exact .inr (.inl rfl)
      · rw [h2]; exact .inr (.inr (.inl ⟨h1, rfl⟩))
      · rw [h1, h2]; exact .inr (.inr (.inr ⟨rfl, rfl⟩))
    · rw [if_neg hx, if_neg hx]
      exact .inl ⟨c, e, rfl, rfl⟩

/-- The CPU sampling of the aperture with a unit weight is the GPU's. -/
theorem amp_one (v ds r dt : F) (hv : lit 1 *. v = v) : amp (lit 1 *. v) ds r dt = amp v ds r dt := by
  rw [hv]

theorem clRectOuter_agree (A : ClArgs F) (hv : lit 1 *. A.v = A.v) (ty : IdxTy) (level : ErrorLevel)
    (hl : oobErr level ≠ .outOfBounds) (a b xo yo zo : F) (fuel n : Nat) :
    ∀ (ys : F) (c : Nat → F) (e : SIRError),
    Agree ty ((clRectOuter A a xo yo zo (b /. lit 2) fuel n ys).runCol A.nt c)
      (outerLoop (colCtx A.nt ty level none)
        (rectSweep ⟨A.dx, A.dy, A.dt, A.delay, A.v, A.cp⟩ (lit 1) xo yo zo a b).row A.dx A.dy
        (b /. lit 2) fuel n ys (c, e)) := by
  induction n with
  | zero => intro ys c e; exact .inr (.inr (.inr ⟨rfl, rfl⟩))
  | succ n ih =>
    intro ys c e
    simp only [clRectOuter, outerLoop]
    by_cases hx : le ys (b /. lit 2) = true
    · rw [if_pos hx, if_pos hx, Prog.runCol_bind]
      rcases clInner_agree A ty level hl xo (yo -. ys) zo (A.dx *. A.dy) (a /. lit 2)
        ((rectSweep ⟨A.dx, A.dy, A.dt, A.delay, A.v, A.cp⟩ (lit 1) xo yo zo a b).row ys).pt
        (fun xs => amp_one _ _ _ _ hv) (fun xs => rfl) fuel (neg a /. lit 2 +. A.dx /. lit 2) c e with
        ⟨c', e', h1, h2⟩ | h1 | ⟨h1, h2⟩ | ⟨h1, h2⟩
      · rw [h1]
        simp only [rectSweep] at h2 ⊢
        rw [h2]
        exact ih _ _ _
      · rw [h1]; exact .inr (.inl rfl)
      · simp only [rectSweep] at h2 ⊢
        rw [h2]; exact .inr (.inr (.inl ⟨h1, rfl⟩))
      · rw [h1]
        simp only [rectSweep] at h2 ⊢
        rw [h2]
        exact .inr (.inr (.inr ⟨rfl, rfl⟩))
    · rw [if_neg hx, if_neg hx]
      exact .inl ⟨c, e, rfl, rfl⟩

theorem clCircOuter_agree (A : ClArgs F) (hv : lit 1 *. A.v = A.v) (ty : IdxTy) (level : ErrorLevel)
    (hl : oobErr level ≠ .outOfBounds) (R xo yo zo : F) (fuel n : Nat) :
    ∀ (ys : F) (c : Nat → F) (e : SIRError),
    Agree ty ((clCircOuter A R xo yo zo fuel n ys).runCol A.nt c)
      (outerLoop (colCtx A.nt ty level none)
        (circSweep ⟨A.dx, A.dy, A.dt, A.delay, A.v, A.cp⟩ (lit 1) xo yo zo R).row A.dx A.dy
        R fuel n ys (c, e)) := by
  induction n with
  | zero => intro ys c e; exact .inr (.inr (.inr ⟨rfl, rfl⟩))
  | succ n ih =>
    intro ys c e
    simp only [clCircOuter, outerLoop]
    by_cases hx : le ys R = true
    · rw [if_pos hx, if_pos hx, Prog.runCol_bind]
      rcases clInner_agree A ty level hl xo (yo -. ys) zo (A.dx *. A.dy) (sqrt (R *. R -. ys *. ys))
        ((circSweep ⟨A.dx, A.dy, A.dt, A.delay, A.v, A.cp⟩ (lit 1) xo yo zo R).row ys).pt
        (fun xs => amp_one _ _ _ _ hv) (fun xs => rfl) fuel
        (neg (sqrt (R *. R -. ys *. ys)) +. A.dx /. lit 2) c e with
        ⟨c', e', h1, h2⟩ | h1 | ⟨h1, h2⟩ | ⟨h1, h2⟩
      · rw [h1]
        simp only [circSweep] at h2 ⊢
        rw [h2]
        exact ih _ _ _
      · rw [h1]; exact .inr (.inl rfl)
      · simp only [circSweep] at h2 ⊢
        rw [h2]; exact .inr (.inr (.inl ⟨h1, rfl⟩))
      · rw [h1]
        simp only [circSweep] at h2 ⊢
        rw [h2]
        exact .inr (.inr (.inr ⟨rfl, rfl⟩))
    · rw [if_neg hx, if_neg hx]
      exact .inl ⟨c, e, rfl, rfl⟩

theorem clClear_run (nt : Nat) (c : Nat → F) :
    (clClear nt).runCol nt c = .ok ((fun i => if i < nt then lit 0 else c i), ()) := by
  unfold clClear
  refine Prog.forN_pointwise nt nt _ (fun _ _ => lit 0) ?_ c
  intro i hi c
  simp only [Prog.runCol]
  rw [if_pos (by omega)]
  rfl

theorem ClArgs.point_ok (A : ClArgs F) (hRo : A.Ro.size = 3 * A.No) (no : Nat) (hno : no < A.No) :
    A.point no = .ok (A.Ro.data no, A.Ro.data (no + A.No), A.Ro.data (no + 2 * A.No)) ∨
    A.point no = .ub .cast := by
  unfold ClArgs.point
  have h1 : A.Ro.read (no : Int) = .ok (A.Ro.data no) := by
    unfold Buf.read; rw [if_pos (by omega)]; rfl
  rw [h1]
  simp only [Outcome.bind]
  rcases int32_cases ((no : Int) + A.No * 1) with h | h
  · rw [h]
    simp only
    have h2 : A.Ro.read ((no : Int) + A.No * 1) = .ok (A.Ro.data (no + A.No)) := by
      unfold Buf.read
      rw [if_pos (by omega), show ((no : Int) + A.No * 1).toNat = no + A.No by omega]
    rw [h2]
    simp only
    rcases int32_cases ((no : Int) + A.No * 2) with h | h
    · rw [h]
      simp only
      have h3 : A.Ro.read ((no : Int) + A.No * 2) = .ok (A.Ro.data (no + 2 * A.No)) := by
        unfold Buf.read
        rw [if_pos (by omega), show ((no : Int) + A.No * 2).toNat = no + 2 * A.No by omega]
      rw [h3]
      exact .inl rfl
    · right; simp only [h]
  · right; simp only [h]

theorem ClArgs.point_small (A : ClArgs F) (hRo : A.Ro.size = 3 * A.No) (no : Nat) (hno : no < A.No)
    (hs : 3 * A.No < 2147483648) :
    A.point no = .ok (A.Ro.data no, A.Ro.data (no + A.No), A.Ro.data (no + 2 * A.No)) := by
  unfold ClArgs.point
  have h1 : A.Ro.read (no : Int) = .ok (A.Ro.data no) := by
    unfold Buf.read; rw [if_pos (by omega)]; rfl
  have h2 : A.Ro.read ((no : Int) + A.No * 1) = .ok (A.Ro.data (no + A.No)) := by
    unfold Buf.read
    rw [if_pos (by omega), show ((no : Int) + A.No * 1).toNat = no + A.No by omega]
  have h3 : A.Ro.read ((no : Int) + A.No * 2) = .ok (A.Ro.data (no + 2 * A.No)) := by
    unfold Buf.read
    rw [if_pos (by omega), show ((no : Int) + A.No * 2).toNat = no + 2 * A.No by omega]
  have e1 : int32 ((no : Int) + A.No * 1) = .ok ((no : Int) + A.No * 1) := by
    unfold int32; rw [if_pos (by omega)]
  have e2 : int32 ((no : Int) + A.No * 2) = .ok ((no : Int) + A.No * 2) := by
    unfold int32; rw [if_pos (by omega)]
  simp only [h1, h2, h3, e1, e2, Outcome.bind]

/-- Work-items of either kernel, once the reads of the inputs are known. -/
theorem cl_item_agree (A : ClArgs F) (hRo : A.Ro.size = 3 * A.No) (no : Nat) (hno : no < A.No)
    (ty : IdxTy) (level : ErrorLevel) (body : F → F → F → Prog F Unit) (g : F → F → F → Sweep F)
    (fuel : Nat)
    (hb : ∀ xo yo zo c e, Agree ty ((body xo yo zo).runCol A.nt c)
      (outerLoop (colCtx A.nt ty level none) (g xo yo zo).row (g xo yo zo).dx (g xo yo zo).dy
        (g xo yo zo).ymax fuel fuel (g xo yo zo).y0 (c, e))) (c : Nat → F) :
    let gpu := ((Prog.lift (A.point no)).bind fun (xo, yo, zo) =>
      (Prog.lift (int32 (0 + A.nt * no))).bind fun _ =>
      (clClear A.nt).bind fun _ => body xo yo zo).runCol A.nt c
    let cpu := runSweep (colCtx A.nt ty level none)
      (g (A.Ro.data no) (A.Ro.data (no + A.No)) (A.Ro.data (no + 2 * A.No))) fuel
      (fun i => if i < A.nt then lit 0 else c i)
    (∃ c' e, gpu = .ok (c', ()) ∧ cpu = .ok (c', e)) ∨ gpu = .ub .cast ∨
      (ty = .unsigned ∧ cpu = .ub .cast) ∨ (gpu = .fuel ∧ cpu = .fuel) := by
  dsimp only
  rw [Prog.runCol_bind, Prog.runCol_lift]
  rcases A.point_ok hRo no hno with h | h
  · rw [h]
    simp only [Outcome.map, Outcome.bind]
    rw [Prog.runCol_bind, Prog.runCol_lift]
    rcases int32_cases (0 + A.nt * no) with h | h
    · rw [h]
      simp only [Outcome.map, Outcome.bind]
      rw [Prog.runCol_bind, clClear_run]
      simp only [Outcome.bind, runSweep]
      rcases hb (A.Ro.data no) (A.Ro.data (no + A.No)) (A.Ro.data (no + 2 * A.No))
        (fun i => if i < A.nt then lit 0 else c i) .none with
        ⟨c', e', h1, h2⟩ | h1 | ⟨h1, h2⟩ | ⟨h1, h2⟩
      · exact .inl ⟨c', e', h1, by rw [h2]; rfl⟩
      · exact .inr (.inl h1)
      · exact .inr (.inr (.inl ⟨h1, by rw [h2]; rfl⟩))
      · exact .inr (.inr (.inr ⟨h1, by rw [h2]; rfl⟩))
    · right; left; simp only [h, Outcome.map, Outcome.bind]
  · right; left; simp only [h, Outcome.map, Outcome.bind]

/-- A work-item of either kernel. -/
def clItem (A : ClArgs F) (body : F → F → F → Prog F Unit) (no : Nat) : Prog F Unit :=
  (Prog.lift (A.point no)).bind fun (xo, yo, zo) =>
  (Prog.lift (int32 (0 + A.nt * no))).bind fun _ =>
  (clClear A.nt).bind fun _ => body xo yo zo

theorem clItem_safe (A : ClArgs F) (hRo : A.Ro.size = 3 * A.No) (no : Nat) (hno : no < A.No)
    (level : ErrorLevel) (body : F → F → F → Prog F Unit) (g : F → F → F → Sweep F) (fuel : Nat)
    (hb : ∀ ty xo yo zo c e, Agree ty ((body xo yo zo).runCol A.nt c)
      (outerLoop (colCtx A.nt ty level none) (g xo yo zo).row (g xo yo zo).dx (g xo yo zo).dy
        (g xo yo zo).ymax fuel fuel (g xo yo zo).y0 (c, e))) (c : Nat → F) :
    (clItem A body no).runCol A.nt c ≠ .ub .oob := by
  unfold clItem
  rcases cl_item_agree A hRo no hno .signed level body g fuel (hb .signed) c with
    ⟨c', e, h1, _⟩ | h1 | ⟨h1, _⟩ | ⟨h1, _⟩
  · rw [h1]; simp
  · rw [h1]; simp
  · simp at h1
  · rw [h1]; simp

theorem clItem_buf (A : ClArgs F) (hRo : A.Ro.size = 3 * A.No) (no : Nat) (hno : no < A.No)
    (level : ErrorLevel) (body : F → F → F → Prog F Unit) (g : F → F → F → Sweep F) (fuel : Nat)
    (hb : ∀ ty xo yo zo c e, Agree ty ((body xo yo zo).runCol A.nt c)
      (outerLoop (colCtx A.nt ty level none) (g xo yo zo).row (g xo yo zo).dx (g xo yo zo).dy
        (g xo yo zo).ymax fuel fuel (g xo yo zo).y0 (c, e)))
    (H : Buf F) (hH : H.size = A.nt * A.No) :
    let cpu := fun ty => runSweep (flatCtx A.nt ty level none (A.nt * no))
      (g (A.Ro.data no) (A.Ro.data (no + A.No)) (A.Ro.data (no + 2 * A.No))) fuel
      (H.setCol (A.nt * no) A.nt (fun _ => lit 0))
    (∀ H', (clItem A body no).runBuf (A.nt * no) H = .ok (H', ()) → ∃ e, cpu .signed = .ok (H', e)) ∧
    (∀ ty H' e, cpu ty = .ok (H', e) →
      (clItem A body no).runBuf (A.nt * no) H = .ok (H', ()) ∨
      (clItem A body no).runBuf (A.nt * no) H = .ub .cast) := by
  have hb' : A.nt * no + A.nt ≤ H.size := by rw [hH]; exact col_in _ _ _ hno
  have hz : H.setCol (A.nt * no) A.nt (fun _ => lit 0) = H.setCol (A.nt * no) A.nt
      (fun i => if i < A.nt then lit 0 else H.getCol (A.nt * no) A.nt i) := by
    simp only [Buf.setCol]
    congr 1
    funext i
    by_cases h : A.nt * no ≤ i ∧ i < A.nt * no + A.nt
    · rw [if_pos h, if_pos h, if_pos (by omega)]
    · rw [if_neg h, if_neg h]
  have hcpu : ∀ ty, runSweep (flatCtx A.nt ty level none (A.nt * no))
      (g (A.Ro.data no) (A.Ro.data (no + A.No)) (A.Ro.data (no + 2 * A.No))) fuel
      (H.setCol (A.nt * no) A.nt (fun _ => lit 0)) =
      (runSweep (colCtx A.nt ty level none)
        (g (A.Ro.data no) (A.Ro.data (no + A.No)) (A.Ro.data (no + 2 * A.No)))
        fuel (fun i => if i < A.nt then lit 0 else H.getCol (A.nt * no) A.nt i)).map
        (liftS (H.setCol (A.nt * no) A.nt)) := by
    intro ty
    rw [hz]
    exact runSweep_sim (flat_sim A.nt ty level none (A.nt * no) H hb') _ fuel _
  have ha := fun ty => cl_item_agree A hRo no hno ty level body g fuel (hb ty)
    (H.getCol (A.nt * no) A.nt)
  have hgpu : (clItem A body no).runBuf (A.nt * no) H =
      ((clItem A body no).runCol A.nt (H.getCol (A.nt * no) A.nt)).map
        fun r => (H.setCol (A.nt * no) A.nt r.1, r.2) :=
    Prog.runBuf_col _ _ H hb' _ (clItem_safe A hRo no hno level body g fuel hb _)
  dsimp only
  rw [hgpu]
  constructor
  · intro H' h
    rw [hcpu]
    rcases ha .signed with ⟨c', e, h1, h2⟩ | h1 | ⟨h1, _⟩ | ⟨h1, _⟩
    · unfold clItem at h
      rw [h1] at h
      rw [h2]
      simp only [Outcome.map, Outcome.ok.injEq, Prod.mk.injEq] at h
      exact ⟨e, by simp only [Outcome.map, liftS]; rw [h.1]⟩
    · unfold clItem at h; rw [h1] at h; simp at h
    · simp at h1
    · unfold clItem at h; rw [h1] at h; simp at h
  · intro ty H' e h
    rw [hcpu] at h
    rcases ha ty with ⟨c', e', h1, h2⟩ | h1 | ⟨_, h1⟩ | ⟨_, h1⟩
    · rw [h2] at h
      simp only [Outcome.map, liftS, Outcome.ok.injEq, Prod.mk.injEq] at h
      left
      unfold clItem
      rw [h1]
      simp only [Outcome.map]
      rw [h.1]
    · right; unfold clItem; rw [h1]; rfl
    · rw [h1] at h; simp at h
    · rw [h1] at h; simp at h

/-! ### C40: one work-item -/

/-- The CPU's parameters for a GPU argument list. -/
def ClArgs.par (A : ClArgs F) : Par F := ⟨A.dx, A.dy, A.dt, A.delay, A.v, A.cp⟩

theorem nonstop {level : ErrorLevel} (hl : level = .ignore ∨ level = .warn ∨ level = .none) :
    oobErr level ≠ .outOfBounds := by
  rcases hl with h | h | h <;> rw [h] <;> simp [oobErr]

/-- C40, one observation point, rectangular transducer: let `H` be any output matrix.  If the work-item
ends, the CPU kernel (signed index type, lossless, error level without stop) run on `H` with the
point's column zeroed ends with exactly the same matrix.  Conversely, if the CPU kernel ends (either
index type), the work-item ends with the same matrix or fails in a conversion to 32-bit `int`.
(`lit 1 *. v = v` because the CPU multiplies `v` by the weight 1.) -/
theorem C40_rect_item (A : ClArgs F) (a b : F) (hv : lit 1 *. A.v = A.v)
    (hRo : A.Ro.size = 3 * A.No) (no : Nat) (hno : no < A.No) (H : Buf F)
    (hH : H.size = A.nt * A.No) (fuel : Nat) (level : ErrorLevel)
    (hl : level = .ignore ∨ level = .warn ∨ level = .none) :
    let cpu := fun ty => dreamrectSerial A.nt ty level none A.par (lit 1) (A.Ro.data no)
      (A.Ro.data (no + A.No)) (A.Ro.data (no + 2 * A.No)) a b fuel (A.nt * no)
      (H.setCol (A.nt * no) A.nt (fun _ => lit 0))
    (∀ H', (clRect A a b fuel no).runBuf (A.nt * no) H = .ok (H', ()) →
      ∃ e, cpu .signed = .ok (H', e)) ∧
    (∀ ty H' e, cpu ty = .ok (H', e) →
      (clRect A a b fuel no).runBuf (A.nt * no) H = .ok (H', ()) ∨
      (clRect A a b fuel no).runBuf (A.nt * no) H = .ub .cast) :=
  clItem_buf A hRo no hno level
    (fun xo yo zo => clRectOuter A a xo yo zo (b /. lit 2) fuel fuel (neg b /. lit 2 +. A.dy /. lit 2))
    (fun xo yo zo => rectSweep A.par (lit 1) xo yo zo a b) fuel
    (fun ty xo yo zo c e => clRectOuter_agree A hv ty level (nonstop hl) a b xo yo zo fuel fuel _ c e) H hH

/-- C40, one observation point, circular transducer. -/
theorem C40_circ_item (A : ClArgs F) (R : F) (hv : lit 1 *. A.v = A.v)
    (hRo : A.Ro.size = 3 * A.No) (no : Nat) (hno : no < A.No) (H : Buf F)
    (hH : H.size = A.nt * A.No) (fuel : Nat) (level : ErrorLevel)
    (hl : level = .ignore ∨ level = .warn ∨ level = .none) :
    let cpu := fun ty => dreamcircSerial A.nt ty level none A.par (lit 1) (A.Ro.data no)
      (A.Ro.data (no + A.No)) (A.Ro.data (no + 2 * A.No)) R fuel (A.nt * no)
      (H.setCol (A.nt * no) A.nt (fun _ => lit 0))
    (∀ H', (clCirc A R fuel no).runBuf (A.nt * no) H = .ok (H', ()) →
      ∃ e, cpu .signed = .ok (H', e)) ∧
    (∀ ty H' e, cpu ty = .ok (H', e) →
      (clCirc A R fuel no).runBuf (A.nt * no) H = .ok (H', ()) ∨
      (clCirc A R fuel no).runBuf (A.nt * no) H = .ub .cast) :=
  clItem_buf A hRo no hno level
    (fun xo yo zo => clCircOuter A R xo yo zo fuel fuel (neg R +. A.dy /. lit 2))
    (fun xo yo zo => circSweep A.par (lit 1) xo yo zo R) fuel
    (fun ty xo yo zo c e => clCircOuter_agree A hv ty level (nonstop hl) R xo yo zo fuel fuel _ c e) H hH

/-! ### C40: a whole launch -/

/-- The GPU arguments the wrapper passes for a call: `delay[0]` is the delay of all points
(oct/oct_dreamrect.cc 243, oct/oct_dreamcirc.cc). -/
def SirCall.cl (D : SirCall F) : ClArgs F :=
  ⟨D.Ro, D.No, D.p.dx, D.p.dy, D.p.dt, D.nt, D.delay.data 0, D.p.v, D.p.cp⟩

/-- The program of work-item `n` for the two transducers that have a GPU kernel. -/
def SirCall.clItems (D : SirCall F) (fuel : Nat) : Nat → Prog F Unit :=
  match D.k with
  | .rect _ a b => clRect D.cl a b fuel
  | .circ _ R => clCirc D.cl R fuel
  | _ => fun _ => .spin

/-- A call the GPU version is meant for: rectangular or circular, no array weight, lossless, one
delay for all points, an error level without stop. -/
structure SirCall.ForGpu (D : SirCall F) : Prop where
  kern : (∃ a b, D.k = .rect (lit 1) a b) ∨ ∃ R, D.k = .circ (lit 1) R
  att : D.att = none
  delay : D.delayType = .single
  level : D.level = .ignore ∨ D.level = .warn ∨ D.level = .none
  unit : lit 1 *. D.p.v = D.p.v

theorem SirCall.cl_serial (D : SirCall F) (hg : D.ForGpu) (m : Buf F) (hs : D.Sized m)
    (hz : ∀ i, m.data i = lit 0) (fuel n : Nat) (hn : n < D.No) (fresh : Nat → F) :
    itemOut D.nt (D.clItems fuel) fresh n ≠ .ub .oob ∧
    ∀ c, itemOut D.nt (D.clItems fuel) fresh n = .ok (c, ()) → D.ty = .signed →
      ∃ m' e, D.serialAt n fuel m = .ok (m', e) ∧ ∀ j, j < D.nt → m'.data (n * D.nt + j) = c j := by
  have hsz : m.size = D.nt * D.No := by rw [hs.out, Nat.mul_comm]
  have hdel : D.delay.size = 1 := by have := hs.delay; rw [hg.delay] at this; exact this
  have hin : D.inputs n = .ok (D.Ro.data n, D.Ro.data (n + D.No), D.Ro.data (n + 2 * D.No),
      D.delay.data 0) := by
    have h1 := hs.ro
    unfold SirCall.inputs Buf.read
    rw [hg.delay]
    simp only [Outcome.bind]
    rw [if_pos (by omega)]
    simp only
    rw [if_pos (by omega)]
    simp only
    rw [if_pos (by omega)]
    simp only
    rw [if_pos (by omega)]
    simp only [Nat.one_mul]
    rfl
  -- any starting column gives the same result since the item clears it first
  have hclear : ∀ (body : F → F → F → Prog F Unit) (c c' : Nat → F) r,
      (clItem D.cl body n).runCol D.nt c = .ok r →
      ∃ r', (clItem D.cl body n).runCol D.nt c' = .ok r' ∧ ColEq D.nt r'.1 r.1 := by
    intro body c c' r h
    unfold clItem at h ⊢
    rw [Prog.runCol_bind, Prog.runCol_lift] at h ⊢
    cases hp : D.cl.point n with
    | ub e => rw [hp] at h; simp at h
    | fuel => rw [hp] at h; simp at h
    | ok x =>
      rw [hp] at h
      simp only [Outcome.map, Outcome.bind] at h ⊢
      rw [Prog.runCol_bind, Prog.runCol_lift] at h ⊢
      rcases int32_cases (0 + D.cl.nt * n) with hi | hi
      · rw [hi] at h
        simp only [hi, Outcome.map, Outcome.bind] at h ⊢
        rw [Prog.runCol_bind] at h ⊢
        have e1 := clClear_run D.nt c
        have e2 := clClear_run D.nt c'
        have hcl : D.cl.nt = D.nt := rfl
        rw [hcl] at h ⊢
        rw [e1] at h
        rw [e2]
        simp only [Outcome.bind] at h ⊢
        have := runCol_congr D.nt (body x.1 x.2.1 x.2.2)
          (fun i => if i < D.nt then lit 0 else c' i) (fun i => if i < D.nt then lit 0 else c i)
          (fun j hj => by simp [hj])
        rw [h] at this
        cases hr : (body x.1 x.2.1 x.2.2).runCol D.nt (fun i => if i < D.nt then lit 0 else c' i) with
        | ok r' => rw [hr] at this; exact ⟨r', rfl, this.1⟩
        | ub e => rw [hr] at this; exact absurd this (by simp [SameOut])
        | fuel => rw [hr] at this; exact absurd this (by simp [SameOut])
      · simp only [hi, Outcome.map, Outcome.bind] at h
        simp at h
  have hzero : m.setCol (D.nt * n) D.nt (fun _ => lit 0) = m := by
    cases m with
    | mk size data =>
      simp only [Buf.setCol]
      congr 1
      funext i
      split
      · exact (hz i).symm
      · rfl
  have hb' : D.nt * n + D.nt ≤ m.size := by rw [hsz]; exact col_in _ _ _ hn
  -- the common part of both transducers
  have main : ∀ (body : F → F → F → Prog F Unit) (g : F → F → F → Sweep F),
      (∀ ty xo yo zo c e, Agree ty ((body xo yo zo).runCol D.nt c)
        (outerLoop (colCtx D.nt ty D.level none) (g xo yo zo).row (g xo yo zo).dx (g xo yo zo).dy
          (g xo yo zo).ymax fuel fuel (g xo yo zo).y0 (c, e))) →
      D.clItems fuel = clItem D.cl body →
      (D.serialAt n fuel m = runSweep (flatCtx D.nt D.ty D.level none (D.nt * n))
        (g (D.Ro.data n) (D.Ro.data (n + D.No)) (D.Ro.data (n + 2 * D.No))) fuel m) →
      itemOut D.nt (D.clItems fuel) fresh n ≠ .ub .oob ∧
      ∀ c, itemOut D.nt (D.clItems fuel) fresh n = .ok (c, ()) → D.ty = .signed →
        ∃ m' e, D.serialAt n fuel m = .ok (m', e) ∧ ∀ j, j < D.nt → m'.data (n * D.nt + j) = c j := by
    intro body g hb hitem hser
    unfold itemOut
    rw [hitem]
    refine ⟨clItem_safe D.cl hs.ro n hn D.level body g fuel hb _, ?_⟩
    intro c hc hty
    obtain ⟨r', hr', heq⟩ := hclear body _ (m.getCol (D.nt * n) D.nt) _ hc
    have hbuf : (clItem D.cl body n).runBuf (D.nt * n) m = .ok (m.setCol (D.nt * n) D.nt r'.1, ()) := by
      rw [Prog.runBuf_col (D.nt * n) D.nt m hb' _
        (clItem_safe D.cl hs.ro n hn D.level body g fuel hb _), hr']
      rfl
    obtain ⟨e, he⟩ := (clItem_buf D.cl hs.ro n hn D.level body g fuel hb m hsz).1 _ hbuf
    refine ⟨m.setCol (D.nt * n) D.nt r'.1, e, ?_, ?_⟩
    · rw [hser, hty]
      have : D.cl.nt = D.nt := rfl
      simp only [this, hzero] at he
      exact he
    · intro j hj
      rw [Nat.mul_comm n, Buf.setCol_data_in _ _ _ _ _ hj]
      exact heq j hj
  rcases hg.kern with ⟨a, b, hk⟩ | ⟨R, hk⟩
  · refine main
      (fun xo yo zo => clRectOuter D.cl a xo yo zo (b /. lit 2) fuel fuel (neg b /. lit 2 +. D.cl.dy /. lit 2))
      (fun xo yo zo => rectSweep D.cl.par (lit 1) xo yo zo a b)
      (fun ty xo yo zo c e => clRectOuter_agree D.cl hg.unit ty D.level (nonstop hg.level) a b xo yo zo
        fuel fuel _ c e) ?_ ?_
    · unfold SirCall.clItems; rw [hk]; rfl
    · unfold SirCall.serialAt
      rw [hin, hk, hg.att, Nat.mul_comm n]
      rfl
  · refine main
      (fun xo yo zo => clCircOuter D.cl R xo yo zo fuel fuel (neg R +. D.cl.dy /. lit 2))
      (fun xo yo zo => circSweep D.cl.par (lit 1) xo yo zo R)
      (fun ty xo yo zo c e => clCircOuter_agree D.cl hg.unit ty D.level (nonstop hg.level) R xo yo zo
        fuel fuel _ c e) ?_ ?_
    · unfold SirCall.clItems; rw [hk]; rfl
    · unfold SirCall.serialAt
      rw [hin, hk, hg.att, Nat.mul_comm n]
      rfl

/-- C40, the whole matrix: let the number of points be a multiple of the work-group size.  Whatever
the device's schedule and whatever was in the device buffer before, if the launch completes then the
matrix read back is, entry for entry, the matrix every complete run of the threaded CPU driver
produces on a zeroed output, with any number of workers and any schedule. -/
theorem C40_image (D : SirCall F) (m : Buf F) (hs : D.Sized m) (hz : ∀ i, m.data i = lit 0)
    (hg : D.ForGpu) (hty : D.ty = .signed) (hNo : D.No % 64 = 0) (fuel : Nat) (fresh H : Nat → F)
    (hl : Launched D.nt D.No (D.clItems fuel) fresh H)
    (nth : Nat) (h1 : 1 ≤ nth) (as : List Act) (hab : Act.abort ∉ as)
    (s' : Sys F (KLoc F)) (hr : D.Run nth m as s')
    (n : Nat) (hn : n < D.No) (j : Nat) (hj : j < D.nt) :
    H (D.nt * n + j) = s'.mem.data (n * D.nt + j) := by
  have hsafe : ∀ i, i < D.No → itemOut D.nt (D.clItems fuel) fresh i ≠ .ub .oob :=
    fun i hi => (D.cl_serial hg m hs hz fuel i hi fresh).1
  have hd : D.Defined m := by
    intro i hi
    obtain ⟨c, hc, _⟩ := launched_columns D.nt D.No _ fresh H hNo hsafe hl i hi
    obtain ⟨m', e, h, _⟩ := (D.cl_serial hg m hs hz fuel i hi fresh).2 c hc hty
    exact ⟨fuel, _, h⟩
  obtain ⟨c, hc, hH⟩ := launched_columns D.nt D.No _ fresh H hNo hsafe hl n hn
  obtain ⟨m', e, h2, h3⟩ := (D.cl_serial hg m hs hz fuel n hn fresh).2 c hc hty
  rw [hH j hj, ← h3 j hj]
  exact (C03_columns hs hd nth h1 as hab
    (fun i hi => C03_nonstop_levels hs hd hg.level i hi) s' hr n hn fuel m' e h2 j hj).symm

/-- C40: if the number of points is no multiple of 64 the kernel does not run: every matrix whatever
(`X`) can be what the caller gets, the CPU's result or not. -/
theorem C40_other_sizes (D : SirCall F) (fuel : Nat) (hNo : D.No % 64 ≠ 0) (X : Nat → F) :
    (∃ fresh, Launched D.nt D.No (D.clItems fuel) fresh X) ∧
    ∀ H, Launched D.nt D.No (D.clItems fuel) X H → ∀ i, i < D.nt * D.No → H i = X i := by
  refine ⟨⟨X, ?_⟩, fun H h => ?_⟩
  · unfold Launched
    rw [if_neg hNo]
    exact fun _ _ => rfl
  · unfold Launched at h
    rw [if_neg hNo] at h
    exact h

/-! ### Concrete cases -/

section Example
attribute [local instance] toyArith

/-- 64 points at distance 5 in front of a 4 by 4 square. -/
def exGpu : SirCall Int where
  k := .rect 1 4 4
  p := { dx := 2, dy := 2, dt := 1, delay := 0, v := 100, cp := 1000 }
  att := none
  nt := 12
  ty := .signed
  level := .ignore
  No := 64
  Ro := { size := 192, data := fun i => if i < 128 then 0 else 5 }
  delayType := .single
  delay := { size := 1, data := fun _ => 0 }

def exGpuOut : Buf Int := ⟨768, fun _ => 0⟩

theorem exGpu_for : exGpu.ForGpu :=
  ⟨.inl ⟨4, 4, rfl⟩, rfl, rfl, .inl rfl, by decide⟩

theorem exGpu_sized : exGpu.Sized exGpuOut := ⟨rfl, rfl, rfl⟩

theorem exGpu_point (n : Nat) (hn : n < 64) : exGpu.cl.point n = .ok (0, 0, 5) := by
  rw [exGpu.cl.point_small rfl n hn (by decide)]
  show Outcome.ok ((if n < 128 then (0 : Int) else 5), (if n + 64 < 128 then (0 : Int) else 5),
    if n + 2 * 64 < 128 then (0 : Int) else 5) = _
  rw [if_pos (by omega), if_pos (by omega), if_neg (by omega)]

theorem exGpu_item (n : Nat) (hn : n < 64) :
    ∃ r, itemOut exGpu.nt (exGpu.clItems 3) (fun _ => 9) n = .ok r := by
  have e2 : int32 (0 + exGpu.cl.nt * n) = .ok (0 + exGpu.cl.nt * n) := by
    show int32 (0 + 12 * (n : Int)) = _
    unfold int32; rw [if_pos (by omega)]; rfl
  unfold itemOut
  show ∃ r, (clRect exGpu.cl 4 4 3 n).runCol 12 _ = .ok r
  unfold clRect
  rw [exGpu_point n hn, e2]
  exact ⟨_, rfl⟩

-- a launch of 64 work-items exists
example : ∃ H, Launched exGpu.nt exGpu.No (exGpu.clItems 3) (fun _ => 9) H :=
  launch_exists _ _ _ _ fun i hi => exGpu_item i hi

-- ... and it leaves four times 13000 in sample 5 of every column and zeros elsewhere
example (H : Nat → Int) (h : Launched exGpu.nt exGpu.No (exGpu.clItems 3) (fun _ => 9) H) (n : Nat)
    (hn : n < 64) : H (12 * n + 5) = 52000 ∧ H (12 * n + 6) = 0 := by
  obtain ⟨c, hc, hH⟩ := launched_columns 12 64 (exGpu.clItems 3) (fun _ => 9) H rfl
    (fun i hi g => by
      obtain ⟨r, hr⟩ := exGpu_item i hi
      rw [show itemOut 12 (exGpu.clItems 3) (fun _ => 9) i = .ok r from hr] at g
      simp at g) h n hn
  have e2 : int32 (0 + exGpu.cl.nt * n) = .ok (0 + exGpu.cl.nt * n) := by
    show int32 (0 + 12 * (n : Int)) = _
    unfold int32; rw [if_pos (by omega)]; rfl
  have hc' : (clRect exGpu.cl 4 4 3 n).runCol 12 (fun _ => 9) = .ok (c, ()) := hc
  unfold clRect at hc'
  rw [exGpu_point n hn, e2] at hc'
  have h0 : c = (fun q => if q = 5 then (52000 : Int) else if q < 12 then 0 else 9) := by
    have h1 := congrArg (fun o => match o with | Outcome.ok r => r.1 | _ => fun _ => (0 : Int)) hc'
    simp only at h1
    rw [← h1]
    funext q
    by_cases hq : q = 5
    · subst hq; rfl
    · by_cases hq2 : q < 12
      · rw [if_neg hq, if_pos hq2]
        rcases q with _ | _ | _ | _ | _ | _ | _ | _ | _ | _ | _ | _ | q <;> first | rfl | omega
      · rw [if_neg hq, if_neg hq2]
        obtain ⟨q', rfl⟩ : ∃ q', q = q' + 12 := ⟨q - 12, by omega⟩
        rfl
  rw [hH 5 (by decide), hH 6 (by decide), h0]
  exact ⟨rfl, rfl⟩

/-- The same call with a delay that puts all responses at sample 3 000 000 005. -/
def exFar : SirCall Int :=
  { exGpu with delay := { size := 1, data := fun _ => -3000000000 } }

/-- C40: the 32-bit conversion matters: for this call the CPU kernel drops all contributions (they
are out of bounds) and returns a zero column, but the work-item converts 3000000005 to `int`. -/
theorem C40_int_limit : exFar.ForGpu ∧ exFar.Sized exGpuOut ∧
    exFar.serialAt 0 3 exGpuOut = .ok (exGpuOut, .ignoreOutOfBounds) ∧
    (exFar.clItems 3 0).runBuf 0 exGpuOut = .ub .cast := by
  refine ⟨⟨.inl ⟨4, 4, rfl⟩, rfl, rfl, .inl rfl, by decide⟩, ⟨rfl, rfl, rfl⟩, rfl, rfl⟩

end Example

end Dream
