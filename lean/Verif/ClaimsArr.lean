import Verif.ErrSpec
import Verif.Arr
import Verif.Toy

/-
Array transducers, every arithmetic: memory safety (C09), the threaded drivers (C03-C05, C07,
C08, C42), error codes (C16).
-/

namespace Dream
open Arith

variable {F : Type} [Arith F]

/-! ### Memory safety -/

/-- The array buffers have the sizes the argument checks are meant to ensure. -/
structure ArrPar.Sized (A : ArrPar F) : Prop where
  num : 1 ≤ A.num
  grid : A.G.size = 3 * A.num
  focal : if A.focMet = .ud then A.focal.size = A.num else 1 ≤ A.focal.size
  apod : A.doApod = true → A.apodMet = .ud → A.apod.size = A.num

theorem maxLoop_ok (G : Buf F) (off k i : Nat) (cur : F) (h : off + i + k ≤ G.size) :
    ∃ x, maxLoop G off k i cur = .ok x := by
  induction k generalizing i cur with
  | zero => exact ⟨cur, rfl⟩
  | succ k ih =>
    simp only [maxLoop, Buf.read]
    rw [if_pos (by omega)]
    exact ih _ _ (by omega)

theorem maxDimArr_ok (G : Buf F) (num : Nat) (h1 : 1 ≤ num) (h : 3 * num ≤ G.size) :
    ∃ d, maxDimArr G num = .ok d := by
  unfold maxDimArr
  obtain ⟨xm, hx⟩ := maxLoop_ok G 0 (num - 1) 1 (abs (G.data 0)) (by omega)
  obtain ⟨ym, hy⟩ := maxLoop_ok G num (num - 1) 1 (abs (G.data num)) (by omega)
  have r0 : G.read 0 = .ok (G.data 0) := by
    simp only [Buf.read]; rw [if_pos (by omega)]; rfl
  have r1 : G.read (num : Int) = .ok (G.data num) := by
    simp only [Buf.read]; rw [if_pos (by omega)]; simp
  rw [r0]; simp only [Outcome.bind]
  rw [hx]; simp only
  rw [r1]; simp only
  rw [hy]
  exact ⟨_, rfl⟩

/-- What `elem` computes from well-sized buffers. -/
theorem elem_ok (A : ArrPar F) (hA : A.Sized) (d : Dims F) (cp : F) (n : Nat) (hn : n < A.num) :
    A.elem d cp n = .ok
      { gx := A.G.data n, gy := A.G.data (A.num + n), gz := A.G.data (2 * A.num + n)
        foc := if A.focMet = .ud then A.focal.data n
          else focusing A.focMet (A.focal.data 0) (A.G.data n) (A.G.data (A.num + n)) d cp
        steer := beamsteering A.steerMet A.theta A.phi (A.G.data n) (A.G.data (A.num + n)) d cp
        weight := if A.doApod then
            apodFormula A.apodMet (A.apod.data n)
              (sqrt (A.G.data n *. A.G.data n +. A.G.data (A.num + n) *. A.G.data (A.num + n)))
              d.rmax A.apodPar
          else lit 1 } := by
  have hg := hA.grid
  have hf := hA.focal
  have ha := hA.apod
  have rd : ∀ i : Nat, i < 3 * A.num → A.G.read (i : Int) = .ok (A.G.data i) := by
    intro i hi
    simp only [Buf.read]; rw [if_pos (by omega)]; simp
  unfold ArrPar.elem
  rw [rd n (by omega)]; simp only [Outcome.bind]
  rw [rd (A.num + n) (by omega)]; simp only
  rw [rd (2 * A.num + n) (by omega)]; simp only
  have hfoc : (if A.focMet = .ud then A.focal.read (n : Int)
      else (A.focal.read 0).map fun f =>
        focusing A.focMet f (A.G.data n) (A.G.data (A.num + n)) d cp) =
      .ok (if A.focMet = .ud then A.focal.data n
          else focusing A.focMet (A.focal.data 0) (A.G.data n) (A.G.data (A.num + n)) d cp) := by
    by_cases h : A.focMet = .ud
    · rw [if_pos h] at hf
      simp only [if_pos h, Buf.read]
      rw [if_pos (by omega)]; simp
    · rw [if_neg h] at hf
      simp only [if_neg h, Buf.read]
      rw [if_pos (by omega)]; rfl
  rw [hfoc]; simp only
  by_cases hd : A.doApod = true
  · simp only [if_pos hd]
    have : apodization A.apodMet n A.apod (A.G.data n) (A.G.data (A.num + n)) d.rmax A.apodPar =
        .ok (apodFormula A.apodMet (A.apod.data n)
          (sqrt (A.G.data n *. A.G.data n +. A.G.data (A.num + n) *. A.G.data (A.num + n)))
          d.rmax A.apodPar) := by
      unfold apodization
      cases hm : A.apodMet with
      | ud =>
        have := ha hd hm
        simp only [Buf.read, apodFormula]
        rw [if_pos (by omega)]; simp
      | _ => rfl
    rw [this]
  · simp only [if_neg hd]

/-- C09 for arrays: with buffers of the documented sizes and at least one element, the serial
array function performs no access outside its buffers and, if it returns, has changed nothing
but its own column; whatever the numbers are. -/
theorem C09_array_safe (A : ArrPar F) (hA : A.Sized) (K : ArrKern F) (nt : Nat) (ty : IdxTy)
    (level : ErrorLevel) (att : Option (AttResp F)) (p : Par F) (xo yo zo : F)
    (fuel base : Nat) (m : Buf F) (hb : base + nt ≤ m.size) :
    arrSerial A K nt ty level att p xo yo zo fuel base m ≠ .ub .oob ∧
    ∀ m' e, arrSerial A K nt ty level att p xo yo zo fuel base m = .ok (m', e) →
      m'.size = m.size ∧ ∀ j, (j < base ∨ base + nt ≤ j) → m'.data j = m.data j := by
  have key : ∀ (d : Dims F) (k n : Nat) (err : SIRError) (m : Buf F), n + k = A.num →
      base + nt ≤ m.size →
      arrLoop A K d nt ty level att p xo yo zo fuel base k n err m ≠ .ub .oob ∧
      ∀ m' e, arrLoop A K d nt ty level att p xo yo zo fuel base k n err m = .ok (m', e) →
        m'.size = m.size ∧ ∀ j, (j < base ∨ base + nt ≤ j) → m'.data j = m.data j := by
    intro d k
    induction k with
    | zero =>
      intro n err m _ hb
      simp only [arrLoop]
      refine ⟨by simp, fun m' e h => ?_⟩
      simp only [Outcome.ok.injEq, Prod.mk.injEq] at h
      rw [← h.1]; exact ⟨rfl, fun _ _ => rfl⟩
    | succ k ih =>
      intro n err m hn hb
      simp only [arrLoop]
      rw [elem_ok A hA d p.cp n (by omega)]
      simp only [Outcome.bind]
      rw [ArrKern.call_col _ _ _ _ _ _ _ _ _ _ _ _ _ hb]
      generalize hon : Kern.onCol (F := F) _ _ _ _ _ _ _ _ _ _ _ = q
      cases q with
      | ub e =>
        have := Kern.onCol_ub _ _ _ _ _ _ _ _ _ _ _ _ hon
        subst this
        simp
      | fuel => simp
      | ok r =>
        simp only [Outcome.map, liftS]
        by_cases ho : r.2 = .outOfBounds
        · rw [if_pos ho]
          refine ⟨by simp, fun m' e h => ?_⟩
          simp only [Outcome.ok.injEq, Prod.mk.injEq] at h
          rw [← h.1]
          exact ⟨rfl, fun j hj => Buf.setCol_data_out _ _ _ _ _ hj⟩
        · rw [if_neg ho]
          have := ih (n + 1) r.2 (m.setCol base nt r.1) (by omega) (by simpa using hb)
          refine ⟨this.1, fun m' e h => ?_⟩
          obtain ⟨h1, h2⟩ := this.2 m' e h
          exact ⟨by simpa using h1, fun j hj =>
            (h2 j hj).trans (Buf.setCol_data_out _ _ _ _ _ hj)⟩
  obtain ⟨d, hd⟩ := maxDimArr_ok A.G A.num hA.num (by rw [hA.grid]; exact Nat.le_refl _)
  unfold arrSerial
  by_cases hc : K.clears att
  · have hcl := clearCol_setCol m base nt (m.getCol base nt) hb nt (Nat.le_refl _)
    rw [Buf.setCol_getCol] at hcl
    rw [if_pos hc, hcl]
    simp only [Outcome.bind, hd]
    have := key d A.num 0 .none (m.setCol base nt fun i => if i < nt then lit 0 else
      m.getCol base nt i) (by omega) (by simpa using hb)
    refine ⟨this.1, fun m' e h => ?_⟩
    obtain ⟨h1, h2⟩ := this.2 m' e h
    exact ⟨by simpa using h1, fun j hj => (h2 j hj).trans (Buf.setCol_data_out _ _ _ _ _ hj)⟩
  · rw [if_neg hc]
    simp only [Outcome.bind, hd]
    exact key d A.num 0 .none m (by omega) hb

/-- With no element at all, `max_dim_arr` reads `gx[0]` outside the (empty) grid. -/
theorem C09_array_empty_grid (A : ArrPar F) (h : A.G.size = 0) (K : ArrKern F) (nt : Nat)
    (ty : IdxTy) (level : ErrorLevel) (p : Par F) (xo yo zo : F) (fuel base : Nat) (m : Buf F) :
    arrSerial A K nt ty level none p xo yo zo fuel base m = .ub .oob := by
  have hc : K.clears (none : Option (AttResp F)) = false := by cases K <;> rfl
  have hr : A.G.read 0 = .ub .oob := by
    simp only [Buf.read, h]; rfl
  simp [arrSerial, hc, maxDimArr, hr]

/-! ### Threaded array drivers -/

section Runs
variable {D : ArrCall F} {m : Buf F}
open ArrCall

/-- C03 for arrays: if no point stops the run and nobody aborts, every column is the serial
one, for every worker count and every schedule. -/
theorem C03_array_columns (hs : D.Sized m) (hd : D.drv.Defined m) (nth : Nat) (h1 : 1 ≤ nth)
    (as : List Act) (hab : Act.abort ∉ as)
    (hok : ∀ n, n < D.No → ¬ D.drv.PointErr m n .outOfBounds)
    (s' : Sys F (ALoc F)) (hr : D.drv.Run nth m as s')
    (n : Nat) (hn : n < D.No) (fuel : Nat) (m' : Buf F) (e : SIRError)
    (hser : D.serialAt n fuel m = .ok (m', e)) (j : Nat) (hj : j < D.nt) :
    s'.mem.data (n * D.nt + j) = m'.data (n * D.nt + j) :=
  Drv.columns (faithful hs) hd nth h1 as hab hok s' hr n hn fuel m' e hser j hj

/-- C03 for arrays: all complete runs agree. -/
theorem C03_array_same_matrix (hs : D.Sized m) (hd : D.drv.Defined m)
    (hok : ∀ n, n < D.No → ¬ D.drv.PointErr m n .outOfBounds)
    (nth₁ nth₂ : Nat) (h1 : 1 ≤ nth₁) (h2 : 1 ≤ nth₂)
    (as₁ as₂ : List Act) (ha₁ : Act.abort ∉ as₁) (ha₂ : Act.abort ∉ as₂)
    (s₁ s₂ : Sys F (ALoc F)) (hr₁ : D.drv.Run nth₁ m as₁ s₁) (hr₂ : D.drv.Run nth₂ m as₂ s₂) :
    s₁.mem.size = s₂.mem.size ∧ ∀ i, i < s₁.mem.size → s₁.mem.data i = s₂.mem.data i :=
  Drv.same_matrix (faithful hs) hd hok nth₁ nth₂ h1 h2 as₁ as₂ ha₁ ha₂ s₁ s₂ hr₁ hr₂

/-- C04 for arrays. -/
theorem C04_array_flag (hs : D.Sized m) (hd : D.drv.Defined m) (nth : Nat) (h1 : 1 ≤ nth)
    (as : List Act) (hab : Act.abort ∉ as) (s' : Sys F (ALoc F)) (hr : D.drv.Run nth m as s') :
    s'.running = false ↔ ∃ n, n < D.No ∧ D.drv.PointErr m n .outOfBounds :=
  Drv.flag_iff (D := D.drv) (faithful hs) hd nth h1 as hab s' hr

/-- C05 for arrays. -/
theorem C05_array_join (hs : D.Sized m) (hd : D.drv.Defined m) (nth : Nat) (h2 : 2 ≤ nth)
    (as : List Act) (hab : Act.abort ∉ as) (s' : Sys F (ALoc F)) (hr : D.drv.Run nth m as s') :
    ((∃ n, n < D.No ∧ ∃ e, e ≠ SIRError.none ∧ D.drv.PointErr m n e) →
      returned nth s' = codeOf D.level) ∧
    ((∀ n, n < D.No → D.drv.PointErr m n .none) → returned nth s' = .none) := by
  rw [← oobErr_eq]
  exact Drv.join_many (faithful hs) hd nth h2 as hab s' hr

/-- C07 for arrays: whole columns only, also after an abort. -/
theorem C07_array_whole_columns (hs : D.Sized m) (hd : D.drv.Defined m) (nth : Nat)
    (h1 : 1 ≤ nth) (as : List Act) (s' : Sys F (ALoc F)) (hr : D.drv.Run nth m as s') :
    (∀ n, n < D.No →
      (∀ fuel m' e, D.serialAt n fuel m = .ok (m', e) →
        ∀ j, j < D.nt → s'.mem.data (n * D.nt + j) = m'.data (n * D.nt + j)) ∨
      (∀ j, j < D.nt → s'.mem.data (n * D.nt + j) = m.data (n * D.nt + j))) ∧
    (Act.abort ∈ as → s'.running = false ∧
      (wrapper s'.running (returned nth s') = .errCtrlC ∨
       wrapper s'.running (returned nth s') = .errOutOfBounds)) :=
  Drv.whole_columns (faithful hs) hd nth h1 as s' hr

/-- C08 for arrays. -/
theorem C08_array_terminates (hs : D.Sized m) (hd : D.drv.Defined m) (nth : Nat) :
    (∀ as, ∃ s', exec D.task as (initSys D.No nth m) = .ok s') ∧
    (∃ B : Nat → Nat, ∀ as s', exec D.task as (initSys D.No nth m) = .ok s' →
      ∀ w, w < nth → B w ≤ as.count (.step w) → s'.isDone w) ∧
    ∃ as s', Act.abort ∉ as ∧ D.drv.Run nth m as s' :=
  ⟨(Drv.terminates (faithful hs) hd nth).1, (Drv.terminates (faithful hs) hd nth).2,
    let ⟨_, s', h⟩ := Drv.run_exists (faithful hs) hd nth
    ⟨_, s', h⟩⟩

/-- C42 for arrays. -/
theorem C42_array_user_outcome (hs : D.Sized m) (hd : D.drv.Defined m) (nth : Nat)
    (h1 : 1 ≤ nth) (as : List Act) (hab : Act.abort ∉ as) (s' : Sys F (ALoc F))
    (hr : D.drv.Run nth m as s') :
    wrapper s'.running (returned nth s') =
      (open Classical in
      if ∃ n, n < D.No ∧ D.drv.PointErr m n .outOfBounds then
        (if 2 ≤ nth then .errOutOfBounds else .errCtrlC)
      else if (∃ n, n < D.No ∧ D.drv.PointErr m n .warnOutOfBounds) ∧ 2 ≤ nth then
        .valueWithWarning
      else .value) :=
  Drv.user_outcome (faithful hs) hd nth h1 as hab s' hr

end Runs

/-! ### C16 -/

/-- The loop tail without memory. -/
def unitCtx (F : Type) (nt : Nat) (ty : IdxTy) (level : ErrorLevel) : Ctx F Unit where
  nt := nt
  ty := ty
  level := level
  act := fun _ _ _ _ => .ok ()

theorem unit_sim (nt : Nat) (ty : IdxTy) (level : ErrorLevel) (att : Option (AttResp F)) :
    Sim (unitCtx F nt ty level) (colCtx nt ty level att) (fun _ => ()) where
  nt := rfl
  ty := rfl
  level := rfl
  act := fun _ _ _ _ _ _ => rfl

/-- Whether a kernel returns, and with which code, does not depend on the column content. -/
theorem Kern.onCol_code (k : Kern F) (nt : Nat) (ty : IdxTy) (level : ErrorLevel)
    (att : Option (AttResp F)) (p : Par F) (xo yo zo : F) (fuel : Nat) (c c' : Nat → F)
    (r : (Nat → F) × SIRError) (h : k.onCol nt ty level att p xo yo zo fuel c = .ok r) :
    ∃ d, k.onCol nt ty level att p xo yo zo fuel c' = .ok (d, r.2) := by
  have key : ∀ (x y : Outcome ((Nat → F) × SIRError)),
      x.map (liftS fun _ => ()) = y.map (liftS fun _ => ()) → x = .ok r →
      ∃ d, y = .ok (d, r.2) := by
    intro x y hxy hx
    rw [hx] at hxy
    cases y with
    | ok q =>
      simp only [Outcome.map, liftS, Outcome.ok.injEq, Prod.mk.injEq, true_and] at hxy
      exact ⟨q.1, by rw [hxy]⟩
    | ub e => simp at hxy
    | fuel => simp at hxy
  have hs := unit_sim (F := F) nt ty level att
  cases k with
  | line a =>
    exact key _ _ ((runRow_sim hs _ _ _ _).symm.trans (runRow_sim hs _ _ _ _)) h
  | _ => exact key _ _ ((runSweep_sim hs _ _ _).symm.trans (runSweep_sim hs _ _ _)) h

/-- The element codes decide the result code. -/
theorem arrLoop_code (A : ArrPar F) (K : ArrKern F) (d : Dims F) (nt : Nat)
    (ty : IdxTy) (level : ErrorLevel) (att : Option (AttResp F)) (p : Par F) (xo yo zo : F)
    (fuel base : Nat) (m₀ : Buf F) (h₀ : base + nt ≤ m₀.size) (el : Nat → Elem F)
    (hel : ∀ n, n < A.num → A.elem d p.cp n = .ok (el n))
    (e : Nat → SIRError)
    (hcall : ∀ n, n < A.num → ∃ m', K.call nt ty level att p xo yo zo (el n) fuel base m₀ =
      .ok (m', e n)) (k : Nat) :
    ∀ (n : Nat) (err : SIRError) (m : Buf F), n + k = A.num → base + nt ≤ m.size →
      ∃ m' code, arrLoop A K d nt ty level att p xo yo zo fuel base k n err m =
        .ok (m', code) ∧
        ((∃ i, n ≤ i ∧ i < A.num ∧ e i = .outOfBounds) → code = .outOfBounds) ∧
        ((∀ i, n ≤ i → i < A.num → e i ≠ .outOfBounds) →
          code = if k = 0 then err else e (A.num - 1)) := by
  induction k with
  | zero =>
    intro n err m hn hb
    refine ⟨m, err, rfl, ?_, fun _ => rfl⟩
    rintro ⟨i, h1, h2, _⟩; omega
  | succ k ih =>
    intro n err m hn hb
    simp only [arrLoop]
    rw [hel n (by omega)]
    simp only [Outcome.bind]
    obtain ⟨m1, hm1⟩ := hcall n (by omega)
    rw [ArrKern.call_col _ _ _ _ _ _ _ _ _ _ _ _ _ h₀, Outcome.map_eq_ok] at hm1
    obtain ⟨q, hq, hq2⟩ := hm1
    have hq3 : q.2 = e n := congrArg Prod.snd hq2
    obtain ⟨c', hc'⟩ := Kern.onCol_code _ _ _ _ _ _ _ _ _ _ _ (m.getCol base nt) _ hq
    rw [ArrKern.call_col _ _ _ _ _ _ _ _ _ _ _ _ _ hb, hc']
    simp only [Outcome.map, liftS, hq3]
    by_cases ho : e n = .outOfBounds
    · rw [if_pos ho]
      exact ⟨_, _, rfl, fun _ => ho, fun h => absurd ho (h n (Nat.le_refl _) (by omega))⟩
    · rw [if_neg ho]
      obtain ⟨m', code, hm', h1, h2⟩ := ih (n + 1) (e n) (m.setCol base nt c') (by omega)
        (by simpa using hb)
      refine ⟨m', code, hm', ?_, ?_⟩
      · rintro ⟨i, h3, h4, h5⟩
        refine h1 ⟨i, ?_, h4, h5⟩
        by_cases h : i = n
        · subst h; exact absurd h5 ho
        · omega
      · intro h
        rw [h2 (fun i hi => h i (by omega)), if_neg (Nat.succ_ne_zero k)]
        split
        · next hk =>
          subst hk
          have : A.num - 1 = n := by omega
          rw [this]
        · rfl

/-- C16: let every element, computed alone on the initial column, return the code `e n`.  Then
the array function returns `out_of_bounds` if some element does, and otherwise the code of the
*last* element, whatever the codes of the others are. -/
theorem C16_array_code (A : ArrPar F) (hA : A.Sized) (K : ArrKern F) (d : Dims F)
    (hd : maxDimArr A.G A.num = .ok d) (nt : Nat) (ty : IdxTy)
    (level : ErrorLevel) (att : Option (AttResp F)) (p : Par F) (xo yo zo : F)
    (fuel base : Nat) (m : Buf F) (hb : base + nt ≤ m.size) (el : Nat → Elem F)
    (hel : ∀ n, n < A.num → A.elem d p.cp n = .ok (el n))
    (e : Nat → SIRError)
    (hcall : ∀ n, n < A.num → ∃ m', K.call nt ty level att p xo yo zo (el n) fuel base m =
      .ok (m', e n)) :
    ∃ m' code, arrSerial A K nt ty level att p xo yo zo fuel base m = .ok (m', code) ∧
      ((∃ i, i < A.num ∧ e i = .outOfBounds) → code = .outOfBounds) ∧
      ((∀ i, i < A.num → e i ≠ .outOfBounds) → code = e (A.num - 1)) := by
  have h1 := hA.num
  have hne : ¬ A.num = 0 := by omega
  have hcl := clearCol_setCol m base nt (m.getCol base nt) hb nt (Nat.le_refl _)
  rw [Buf.setCol_getCol] at hcl
  have key : ∀ m1 : Buf F, base + nt ≤ m1.size → ∃ m' code,
      arrLoop A K d nt ty level att p xo yo zo fuel base A.num 0 .none m1 = .ok (m', code) ∧
      ((∃ i, i < A.num ∧ e i = .outOfBounds) → code = .outOfBounds) ∧
      ((∀ i, i < A.num → e i ≠ .outOfBounds) → code = e (A.num - 1)) := by
    intro m1 hb1
    obtain ⟨m', code, hm', h2, h3⟩ := arrLoop_code A K d nt ty level att p xo yo zo fuel base m hb
      el hel e hcall A.num 0 .none m1 (by omega) hb1
    rw [if_neg hne] at h3
    exact ⟨m', code, hm', fun ⟨i, hi, ho⟩ => h2 ⟨i, Nat.zero_le _, hi, ho⟩,
      fun h => h3 fun i _ hi => h i hi⟩
  unfold arrSerial
  by_cases hc : K.clears att
  · rw [if_pos hc, hcl]
    simp only [Outcome.bind, hd]
    exact key _ (by simpa using hb)
  · rw [if_neg hc]
    simp only [Outcome.bind, hd]
    exact key _ hb

/-- C16: under `warn` and `ignore` the code is always the last element's. -/
theorem C16_last_element (A : ArrPar F) (hA : A.Sized) (K : ArrKern F) (d : Dims F)
    (hd : maxDimArr A.G A.num = .ok d) (nt : Nat) (ty : IdxTy)
    (level : ErrorLevel) (hl : level = .warn ∨ level = .ignore)
    (att : Option (AttResp F)) (p : Par F) (xo yo zo : F)
    (fuel base : Nat) (m : Buf F) (hb : base + nt ≤ m.size) (el : Nat → Elem F)
    (hel : ∀ n, n < A.num → A.elem d p.cp n = .ok (el n))
    (e : Nat → SIRError)
    (hcall : ∀ n, n < A.num → ∃ m', K.call nt ty level att p xo yo zo (el n) fuel base m =
      .ok (m', e n)) :
    ∃ m', arrSerial A K nt ty level att p xo yo zo fuel base m = .ok (m', e (A.num - 1)) := by
  obtain ⟨m', code, hm', _, h2⟩ := C16_array_code A hA K d hd nt ty level att p xo yo zo fuel
    base m hb el hel e hcall
  have : ∀ i, i < A.num → e i ≠ .outOfBounds := by
    intro i hi ho
    obtain ⟨m1, h1⟩ := hcall i hi
    rw [ArrKern.call_col _ _ _ _ _ _ _ _ _ _ _ _ _ hb, Outcome.map_eq_ok] at h1
    obtain ⟨q, hq, hq2⟩ := h1
    have h3 := Kern.onCol_err _ _ _ _ _ _ _ _ _ _ _ _ hq
    have hq3 : q.2 = e i := congrArg Prod.snd hq2
    rw [hq3, ho] at h3
    rcases hl with h | h <;> rw [h] at h3 <;> simp [oobErr] at h3
  exact ⟨m', h2 this ▸ hm'⟩

/-! ### Concrete array calls -/

section Examples
attribute [local instance] toyArith

/-- Two square elements; the first one is far away from the observation point (its response is
out of bounds), the second is near. -/
@[reducible] def toyArr : ArrPar Int where
  num := 2
  G := { size := 6, data := fun i => [40, 0, 0, 0, 0, 0].getD i 0 }
  focMet := .none
  focal := { size := 1, data := fun _ => 0 }
  steerMet := .none
  theta := 0
  phi := 0
  doApod := false
  apod := { size := 1, data := fun _ => 0 }
  apodMet := .hann
  apodPar := 0

theorem toyArr_sized : toyArr.Sized := ⟨by decide, rfl, by decide, by decide⟩

/-- C16 at work: the first element alone gives a warning, the array reports none. -/
theorem C16_warning_lost :
    (∃ m', (ArrKern.rect (4 : Int) 4).call 12 .signed .warn none
        { dx := 2, dy := 2, dt := 1, delay := 0, v := 100, cp := 1000 } 0 0 5
        { gx := 40, gy := 0, gz := 0, foc := 0, steer := 0, weight := 1 } 5 0 toyOut =
      .ok (m', .warnOutOfBounds)) ∧
    (∃ m', arrSerial toyArr (.rect 4 4) 12 .signed .warn none
        { dx := 2, dy := 2, dt := 1, delay := 0, v := 100, cp := 1000 } 0 0 5 5 0 toyOut =
      .ok (m', .none)) := ⟨⟨_, rfl⟩, ⟨_, rfl⟩⟩

/-- An array driver call that meets the hypotheses of the theorems above. -/
@[reducible] def toyArrCall (level : ErrorLevel) : ArrCall Int where
  A := toyArr
  K := .rect 4 4
  p := { dx := 2, dy := 2, dt := 1, delay := 0, v := 100, cp := 1000 }
  att := none
  nt := 12
  ty := .signed
  level := level
  No := 2
  Ro := { size := 6, data := fun i => [0, 40, 0, 0, 5, 5].getD i 0 }
  delayType := .single
  delay := { size := 1, data := fun _ => 0 }

example (l : ErrorLevel) : (toyArrCall l).Sized toyOut ∧ (toyArrCall l).drv.Defined toyOut := by
  refine ⟨⟨rfl, rfl, rfl⟩, fun n hn => ?_⟩
  have : n = 0 ∨ n = 1 := by have : n < 2 := hn; omega
  rcases this with rfl | rfl <;> cases l <;> exact ⟨5, _, rfl⟩

end Examples

end Dream
