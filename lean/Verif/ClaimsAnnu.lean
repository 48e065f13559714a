import Verif.ErrSpec
import Verif.AnnuThms
import Verif.ClaimsKernel
import Verif.ClaimsArrReal

/-
Claims about annular arrays: C21, C22, and the threading claims for the annular driver.
-/

namespace Dream
open Arith

variable {F : Type} [Arith F]

/-! ### Memory safety -/

theorem annuDiscs_safe (A : AnnuPar F) (hA : A.Sized) (nt : Nat) (ty : IdxTy)
    (level : ErrorLevel) (att : Option (AttResp F)) (p : Par F) (xo yo zo : F) (fuel : Nat) :
    ∀ (k n : Nat) (s : Buf F × SIRError), n + k = A.numRadii → s.1.size = nt * A.numRadii →
    (s.2 = .none ∨ s.2 = oobErr level) →
    annuDiscs A nt ty level att p xo yo zo fuel k n s ≠ .ub .oob ∧
    ∀ r, annuDiscs A nt ty level att p xo yo zo fuel k n s = .ok r →
      r.1.size = nt * A.numRadii ∧ (r.2 = .none ∨ r.2 = oobErr level) := by
  intro k
  induction k with
  | zero =>
    intro n s hn hs he
    refine ⟨by simp [annuDiscs], fun r hr => ?_⟩
    simp only [annuDiscs, Outcome.ok.injEq] at hr
    subst hr
    exact ⟨hs, he⟩
  | succ k ih =>
    intro n s hn hs he
    have hin : n * nt + nt ≤ s.1.size := by
      have : (n + 1) * nt ≤ A.numRadii * nt := Nat.mul_le_mul_right _ (by omega)
      rw [Nat.add_mul, Nat.one_mul] at this
      rw [hs, Nat.mul_comm nt]
      exact this
    have hd : annuDisc A nt ty level att p xo yo zo fuel n s ≠ .ub .oob ∧
        ∀ r, annuDisc A nt ty level att p xo yo zo fuel n s = .ok r →
          r.1.size = nt * A.numRadii ∧ (r.2 = .none ∨ r.2 = oobErr level) := by
      unfold annuDisc
      rw [Buf.read_nat _ _ (by have := hA.gr; omega)]
      simp only [Outcome.bind]
      by_cases h0 : n = 0 ∧ le (A.Gr.data n) epsilon = true
      · rw [if_pos h0]
        have hn0 := h0.1
        subst hn0
        have := clearCol_setCol s.1 0 nt (s.1.getCol 0 nt) (by omega) nt (Nat.le_refl _)
        rw [Buf.setCol_getCol] at this
        rw [this]
        refine ⟨by simp, fun r hr => ?_⟩
        simp only [Outcome.map, Outcome.ok.injEq] at hr
        subst hr
        exact ⟨hs, he⟩
      · rw [if_neg h0]
        have hk := C09_kernel_safe (Kern.circ (lit 1) (A.Gr.data n)) nt ty level att p xo yo zo
          fuel (n * nt) s.1 hin
        have hser := Kern.serial_eq (Kern.circ (lit 1) (A.Gr.data n)) nt ty level att p xo yo zo
          fuel (n * nt) s.1 hin
        simp only [Kern.serial] at hk hser
        refine ⟨hk.1, fun r hr => ?_⟩
        refine ⟨by rw [(hk.2 r.1 r.2 hr).1]; exact hs, ?_⟩
        rw [hser] at hr
        rw [Outcome.map_eq_ok] at hr
        obtain ⟨a, ha, rfl⟩ := hr
        exact Kern.onCol_err _ _ _ _ _ _ _ _ _ _ _ _ ha
    simp only [annuDiscs]
    cases hr : annuDisc A nt ty level att p xo yo zo fuel n s with
    | ok s' =>
      simp only [Outcome.bind]
      obtain ⟨h1, h2⟩ := hd.2 s' hr
      by_cases hoob : s'.2 = .outOfBounds
      · rw [if_pos hoob]
        refine ⟨by simp, fun r hr => ?_⟩
        simp only [Outcome.ok.injEq] at hr
        subst hr
        exact ⟨h1, h2⟩
      · rw [if_neg hoob]
        exact ih (n + 1) s' (by omega) h1 h2
    | ub e =>
      refine ⟨?_, fun r hr => by simp at hr⟩
      have := hd.1
      rw [hr] at this
      simpa using this
    | fuel => exact ⟨by simp, fun r hr => by simp at hr⟩

/-- C09 and C21 for the whole annular function: with buffers of the documented sizes, at least one
radius and no negative delay index, it accesses nothing outside its column and buffers, whatever
the numbers are, and its code is `none` or that of the error level. -/
theorem C09_annu_safe (A : AnnuPar F) (hA : A.Sized) (nt : Nat) (ty : IdxTy)
    (level : ErrorLevel) (att : Option (AttResp F)) (p : Par F) (xo yo zo : F) (fuel : Nat)
    (hq : ∀ n, n < A.numElements → ∀ q, castIdx ty (rint (A.ringDelay p.cp n /. p.dt)) = .ok q →
      0 ≤ q + 1) :
    (annuSerial A nt ty level att p xo yo zo fuel).Safe nt
      (fun e => e = .none ∨ e = oobErr level) := by
  have h1 := hA.radii
  have hE : 1 ≤ A.numElements := by simp only [AnnuPar.numElements]; omega
  unfold annuSerial
  refine Prog.Safe.bind (Q := fun _ => True)
    (Prog.Safe.forN (P := fun _ _ => True) nt 0 () (fun i _ hi _ _ => ⟨by omega, trivial⟩) trivial)
    fun _ _ => ?_
  have hds := annuDiscs_safe A hA nt ty level att p xo yo zo fuel A.numRadii 0
    (zeros F (nt * A.numRadii), .none) (by omega) rfl (Or.inl rfl)
  refine Prog.Safe.bind (Q := fun (s : Buf F × SIRError) => s.1.size = nt * A.numRadii ∧
    (s.2 = .none ∨ s.2 = oobErr level)) (Prog.Safe.lift hds.1 hds.2) fun s hs => ?_
  by_cases hoob : s.2 = .outOfBounds
  · rw [if_pos hoob]; exact hs.2
  rw [if_neg hoob]
  obtain ⟨ring, r1, r2, r3⟩ := annularDiscRadii_ok A hA
  rw [r1]
  refine Prog.Safe.bind (Q := fun r => r = ring) (by exact rfl) fun r hr => ?_
  subst hr
  rw [show (A.numElements : Int) - 1 = ((A.numElements - 1 : Nat) : Int) by omega,
    Buf.read_nat _ _ (by omega), r3 _ (by omega)]
  refine Prog.Safe.bind (Q := fun x => x = A.ringRadius (A.numElements - 1)) (by exact rfl)
    fun x hx => ?_
  subst hx
  refine Prog.Safe.bind (Q := fun (hring : Buf F) => hring.size = nt * A.numElements)
    (Prog.Safe.forN (P := fun _ (hring : Buf F) => hring.size = nt * A.numElements)
      A.numElements 0 _ ?_ rfl) fun _ _ => hs.2
  intro n _ hn hring hsz
  rw [Nat.zero_add] at hn
  rw [ringPar_ok A hA r p.cp n hn r2 (r3 n hn)]
  refine Prog.Safe.bind (Q := fun fw => fw = (A.ringDelay p.cp n, A.ringWeight n)) (by exact rfl)
    fun fw hfw => ?_
  subst hfw
  obtain ⟨hring', e1, e2, _⟩ := respAnnular_ok A nt
    (fun j => { size := nt, data := fun i => s.1.data (j * nt + i) }) s.1 hring hs.1
    (fun _ _ _ _ => rfl) hsz n hn
  rw [e1]
  refine Prog.Safe.bind (Q := fun h => h = hring') (by exact rfl) fun h hh => ?_
  subst hh
  refine Prog.Safe.bind (Q := fun _ => True) ?_ fun _ _ => by rw [← hsz, ← e2]; rfl
  have hsz' : (n + 1) * nt ≤ h.size := by
    have : (n + 1) * nt ≤ A.numElements * nt := Nat.mul_le_mul_right _ (by omega)
    rw [e2, hsz, Nat.mul_comm nt]
    exact this
  unfold superposAnnular
  refine Prog.Safe.bind (Q := fun buf => buf.size = 2 * nt)
    (Prog.Safe.lift ?_ ?_) fun buf hbuf => ?_
  · cases hc : castIdx ty (rint (A.ringDelay p.cp n /. p.dt)) with
    | ok q =>
      obtain ⟨buf, g1, _⟩ := shiftedRing_ok ty h nt _ p.dt n hsz' q hc (by have := hq n hn q hc; omega)
      rw [g1]; simp
    | ub e =>
      have := castIdx_ne_oob ty (rint (A.ringDelay p.cp n /. p.dt))
      rw [hc] at this
      simp only [shiftedRing, hc, Outcome.bind]
      intro h
      apply this
      simpa using h
    | fuel => exact absurd hc (castIdx_ne_fuel _ _)
  · intro buf hb
    cases hc : castIdx ty (rint (A.ringDelay p.cp n /. p.dt)) with
    | ok q =>
      obtain ⟨buf', g1, g2, _⟩ := shiftedRing_ok ty h nt _ p.dt n hsz' q hc
        (by have := hq n hn q hc; omega)
      rw [g1] at hb
      simp only [Outcome.ok.injEq] at hb
      subst hb
      exact g2
    | ub e => simp [shiftedRing, hc] at hb
    | fuel => simp [shiftedRing, hc] at hb
  · refine Prog.Safe.forN (P := fun _ _ => True) nt 0 () ?_ trivial
    intro i _ hi _ _
    rw [Buf.read_nat _ _ (by omega)]
    exact ⟨by omega, fun x => ⟨by omega, trivial⟩⟩

/-- C21: without radii the function reads and writes outside its scratch memory. -/
theorem C21_no_radii_unsafe (A : AnnuPar F) (h : A.numRadii = 0) (nt : Nat) (ty : IdxTy)
    (level : ErrorLevel) (att : Option (AttResp F)) (p : Par F) (xo yo zo : F) (fuel : Nat)
    (c : Nat → F) :
    (annuSerial A nt ty level att p xo yo zo fuel).runCol nt c = .ub .oob := by
  unfold annuSerial
  rw [Prog.runCol_bind, Prog.forN_pointwise nt nt _ (fun _ _ => lit 0)
    (by
      intro i hi c
      simp only [Prog.runCol]
      rw [if_pos (by omega)]
      simp)]
  simp [h, annuDiscs, annularDiscRadii, AnnuPar.numElements, Prog.runCol_bind, Prog.runCol_lift,
    Buf.write]

/-- C21: a user defined delay for the centre element that rounds to less than -1 sample makes the
whole function write out of bounds (error level ignore/warn or all discs in bounds). -/
theorem C21_user_delay_unsafe (A : AnnuPar F) (hA : A.Sized) (nt : Nat) (hnt : 0 < nt) (ty : IdxTy)
    (level : ErrorLevel) (att : Option (AttResp F)) (p : Par F) (xo yo zo : F) (fuel : Nat)
    (disc : Nat → Buf F) (code : Nat → SIRError)
    (hd : ∀ n, n < A.numRadii → A.DiscIs nt ty level att p xo yo zo fuel n (disc n) (code n))
    (hc : ∀ n, n < A.numRadii → code n ≠ .outOfBounds)
    (hud : A.focMet = .ud) (q : Int)
    (hq : castIdx ty (rint (A.focal.data 0 /. p.dt)) = .ok q) (hneg : q < -1) (c : Nat → F) :
    (annuSerial A nt ty level att p xo yo zo fuel).runCol nt c = .ub .oob := by
  have h1 := hA.radii
  have hE : 1 ≤ A.numElements := by simp only [AnnuPar.numElements]; omega
  unfold annuSerial
  rw [Prog.runCol_bind, Prog.forN_pointwise nt nt _ (fun _ _ => lit 0)
    (by
      intro i hi c
      simp only [Prog.runCol]
      rw [if_pos (by omega)]
      simp)]
  simp only [Outcome.bind]
  obtain ⟨h', f1, f2, f3⟩ := annuDiscs_ok A hA nt ty level att p xo yo zo fuel disc code hd hc
    A.numRadii 0 (zeros F (nt * A.numRadii)) .none (by omega) rfl (fun _ => rfl)
    (fun j hj => by omega) (fun j _ i _ => rfl)
  rw [if_neg (by omega)] at f1
  rw [Prog.runCol_bind, Prog.runCol_lift]
  simp only [zeros] at f1
  rw [f1]
  simp only [Outcome.map, Outcome.bind]
  rw [if_neg (hc _ (by omega))]
  obtain ⟨ring, r1, r2, r3⟩ := annularDiscRadii_ok A hA
  rw [Prog.runCol_bind, Prog.runCol_lift, r1]
  simp only [Outcome.map, Outcome.bind]
  rw [Prog.runCol_bind, Prog.runCol_lift,
    show (A.numElements : Int) - 1 = ((A.numElements - 1 : Nat) : Int) by omega,
    Buf.read_nat _ _ (by omega), r3 _ (by omega)]
  simp only [Outcome.map, Outcome.bind]
  rw [Prog.runCol_bind]
  obtain ⟨k, hk⟩ : ∃ k, A.numElements = k + 1 := ⟨A.numElements - 1, by omega⟩
  have hring0 : ({ size := nt * A.numElements, data := fun _ => lit 0 } : Buf F).size =
    nt * A.numElements := rfl
  obtain ⟨hring', e1, e2, _⟩ := respAnnular_ok A nt disc h'
    { size := nt * A.numElements, data := fun _ => lit 0 } f2 f3 rfl 0 (by omega)
  have hdel : A.ringDelay p.cp 0 = A.focal.data 0 := by
    simp [AnnuPar.ringDelay, hud, focusingAnnular]
  rw [hk, Prog.forN, ← hk, Prog.runCol_bind, Prog.runCol_bind, Prog.runCol_lift,
    ringPar_ok A hA ring p.cp 0 (by omega) r2 (r3 0 (by omega))]
  simp only [Outcome.map, Outcome.bind]
  rw [Prog.runCol_bind, Prog.runCol_lift, e1]
  simp only [Outcome.map, Outcome.bind]
  rw [Prog.runCol_bind, hdel, C21_negative_unsafe ty hring' nt hnt _ _ 0 p.dt
    (by
      rw [e2, hring0, Nat.zero_add, Nat.one_mul]
      calc nt = nt * 1 := (Nat.mul_one _).symm
        _ ≤ nt * A.numElements := Nat.mul_le_mul_left _ hE) q hq (by omega)]
  rfl

/-! ### Threaded driver -/

/-- Arguments of `ArrAnnu::dream_arr_annu` (src/dream_arr_annu.cc 514-630).  `fuel` bounds the
passes of the sampling loops; a loop that needs more spins for ever. -/
structure AnnuCall (F : Type) where
  A : AnnuPar F
  p : Par F
  att : Option (AttResp F)
  nt : Nat
  ty : IdxTy
  level : ErrorLevel
  No : Nat
  Ro : Buf F
  delayType : DelayType
  delay : Buf F
  fuel : Nat

namespace AnnuCall

/-- Reading of observation point and delay, src/dream_arr_annu.cc 114-125. -/
def inputs (D : AnnuCall F) (n : Nat) : Outcome (F × F × F × F) :=
  (D.Ro.read (n : Int)).bind fun xo =>
  (D.Ro.read ((n + 1 * D.No : Nat) : Int)).bind fun yo =>
  (D.Ro.read ((n + 2 * D.No : Nat) : Int)).bind fun zo =>
  (D.delay.read (match D.delayType with | .single => 0 | .multiple => (n : Int))).bind fun d =>
  .ok (xo, yo, zo, d)

/-- Body of the worker loop, src/dream_arr_annu.cc 113-161. -/
def prog (D : AnnuCall F) (n : Nat) : Prog F SIRError :=
  (Prog.lift (D.inputs n)).bind fun x =>
    annuSerial D.A D.nt D.ty D.level D.att { D.p with delay := x.2.2.2 } x.1 x.2.1 x.2.2.1 D.fuel

/-- The driver. -/
def drv (D : AnnuCall F) : Drv F (Prog F SIRError) :=
  Drv.ofProg D.No D.nt (fun n => n * D.nt) D.level D.prog

/-- Sizes the argument checks of the wrappers are meant to ensure, and no negative delay index. -/
structure Sized (D : AnnuCall F) (m : Buf F) : Prop where
  arr : D.A.Sized
  ro : D.Ro.size = 3 * D.No
  delay : D.delay.size = match D.delayType with | .single => 1 | .multiple => D.No
  out : m.size = D.No * D.nt
  delays : ∀ n, n < D.A.numElements → ∀ q,
    castIdx D.ty (rint (D.A.ringDelay D.p.cp n /. D.p.dt)) = .ok q → 0 ≤ q + 1

theorem inputs_ok {D : AnnuCall F} {m : Buf F} (hs : D.Sized m) (n : Nat) (hn : n < D.No) :
    ∃ x, D.inputs n = .ok x := by
  have h1 := hs.ro
  have h2 := hs.delay
  unfold inputs
  rw [Buf.read_nat _ _ (by omega)]
  simp only [Outcome.bind]
  rw [Buf.read_nat _ _ (by omega)]
  simp only
  rw [Buf.read_nat _ _ (by omega)]
  simp only
  cases hd : D.delayType with
  | single =>
    rw [hd] at h2
    simp only at h2
    have : D.delay.read 0 = .ok (D.delay.data 0) := Buf.read_nat D.delay 0 (by omega)
    rw [this]
    exact ⟨_, rfl⟩
  | multiple =>
    rw [hd] at h2
    simp only at h2
    rw [Buf.read_nat _ _ (by omega)]
    exact ⟨_, rfl⟩

theorem prog_safe {D : AnnuCall F} {m : Buf F} (hs : D.Sized m) (n : Nat) (hn : n < D.No) :
    (D.prog n).Safe D.nt (fun e => e = .none ∨ e = oobErr D.level) := by
  obtain ⟨x, hx⟩ := inputs_ok hs n hn
  unfold prog
  rw [hx]
  exact C09_annu_safe D.A hs.arr D.nt D.ty D.level D.att _ _ _ _ D.fuel hs.delays

theorem inside {D : AnnuCall F} {m : Buf F} (hs : D.Sized m) (n : Nat) (hn : n < D.No) :
    n * D.nt + D.nt ≤ m.size := by
  have : (n + 1) * D.nt ≤ D.No * D.nt := Nat.mul_le_mul_right _ hn
  rw [Nat.add_mul, Nat.one_mul] at this
  rw [hs.out]
  exact this

theorem ok {D : AnnuCall F} {m : Buf F} (hs : D.Sized m) :
    ProgOk D.No D.nt (fun n => n * D.nt) D.level D.prog m where
  inside := inside hs
  disj := fun i j _ _ hij => SirCall.cols_disj D.nt i j hij
  safe := fun n hn => ((prog_safe hs n hn).run _).1
  code := fun n hn r hr => ((prog_safe hs n hn).run _).2 r hr

theorem faithful {D : AnnuCall F} {m : Buf F} (hs : D.Sized m) : D.drv.Faithful m :=
  Drv.ofProg_faithful (ok hs)

end AnnuCall

section Runs
variable {D : AnnuCall F} {m : Buf F}
open AnnuCall

/-- C09 for the annular driver: no schedule accesses memory out of bounds. -/
theorem C09_annu_driver_safe (hs : D.Sized m) (nth : Nat) (h1 : 1 ≤ nth) (as : List Act) :
    exec D.drv.task as (initSys D.No nth m) ≠ .ub .oob :=
  Drv.ofProg_no_oob (inside hs) (fun n hn => (prog_safe hs n hn).weaken fun _ _ => trivial) nth h1 as

/-- C03 for annular arrays. -/
theorem C03_annu_columns (hs : D.Sized m) (hd : D.drv.Defined m) (nth : Nat) (h1 : 1 ≤ nth)
    (as : List Act) (hab : Act.abort ∉ as)
    (hok : ∀ n, n < D.No → ¬ D.drv.PointErr m n .outOfBounds)
    (s' : Sys F (Prog F SIRError)) (hr : D.drv.Run nth m as s')
    (n : Nat) (hn : n < D.No) (m' : Buf F) (e : SIRError)
    (hser : (D.prog n).runBuf (n * D.nt) m = .ok (m', e)) (j : Nat) (hj : j < D.nt) :
    s'.mem.data (n * D.nt + j) = m'.data (n * D.nt + j) :=
  Drv.columns (faithful hs) hd nth h1 as hab hok s' hr n hn 0 m' e hser j hj

/-- C03 for annular arrays: all complete runs agree. -/
theorem C03_annu_same_matrix (hs : D.Sized m) (hd : D.drv.Defined m)
    (hok : ∀ n, n < D.No → ¬ D.drv.PointErr m n .outOfBounds)
    (nth₁ nth₂ : Nat) (h1 : 1 ≤ nth₁) (h2 : 1 ≤ nth₂)
    (as₁ as₂ : List Act) (ha₁ : Act.abort ∉ as₁) (ha₂ : Act.abort ∉ as₂)
    (s₁ s₂ : Sys F (Prog F SIRError)) (hr₁ : D.drv.Run nth₁ m as₁ s₁)
    (hr₂ : D.drv.Run nth₂ m as₂ s₂) :
    s₁.mem.size = s₂.mem.size ∧ ∀ i, i < s₁.mem.size → s₁.mem.data i = s₂.mem.data i :=
  Drv.same_matrix (faithful hs) hd hok nth₁ nth₂ h1 h2 as₁ as₂ ha₁ ha₂ s₁ s₂ hr₁ hr₂

/-- C04 for annular arrays. -/
theorem C04_annu_flag (hs : D.Sized m) (hd : D.drv.Defined m) (nth : Nat) (h1 : 1 ≤ nth)
    (as : List Act) (hab : Act.abort ∉ as) (s' : Sys F (Prog F SIRError))
    (hr : D.drv.Run nth m as s') :
    s'.running = false ↔ ∃ n, n < D.No ∧ D.drv.PointErr m n .outOfBounds :=
  Drv.flag_iff (D := D.drv) (faithful hs) hd nth h1 as hab s' hr

/-- C05 for annular arrays. -/
theorem C05_annu_join (hs : D.Sized m) (hd : D.drv.Defined m) (nth : Nat) (h2 : 2 ≤ nth)
    (as : List Act) (hab : Act.abort ∉ as) (s' : Sys F (Prog F SIRError))
    (hr : D.drv.Run nth m as s') :
    ((∃ n, n < D.No ∧ ∃ e, e ≠ SIRError.none ∧ D.drv.PointErr m n e) →
      returned nth s' = codeOf D.level) ∧
    ((∀ n, n < D.No → D.drv.PointErr m n .none) → returned nth s' = .none) := by
  rw [← oobErr_eq]
  exact Drv.join_many (faithful hs) hd nth h2 as hab s' hr

/-- C07 for annular arrays. -/
theorem C07_annu_whole_columns (hs : D.Sized m) (hd : D.drv.Defined m) (nth : Nat)
    (h1 : 1 ≤ nth) (as : List Act) (s' : Sys F (Prog F SIRError)) (hr : D.drv.Run nth m as s') :
    (∀ n, n < D.No →
      (∀ fuel m' e, D.drv.serialAt n fuel m = .ok (m', e) →
        ∀ j, j < D.nt → s'.mem.data (n * D.nt + j) = m'.data (n * D.nt + j)) ∨
      (∀ j, j < D.nt → s'.mem.data (n * D.nt + j) = m.data (n * D.nt + j))) ∧
    (Act.abort ∈ as → s'.running = false ∧
      (wrapper s'.running (returned nth s') = .errCtrlC ∨
       wrapper s'.running (returned nth s') = .errOutOfBounds)) :=
  Drv.whole_columns (D := D.drv) (faithful hs) hd nth h1 as s' hr

/-- C08 for annular arrays. -/
theorem C08_annu_terminates (hs : D.Sized m) (hd : D.drv.Defined m) (nth : Nat) :
    (∀ as, ∃ s', exec D.drv.task as (initSys D.No nth m) = .ok s') ∧
    (∃ B : Nat → Nat, ∀ as s', exec D.drv.task as (initSys D.No nth m) = .ok s' →
      ∀ w, w < nth → B w ≤ as.count (.step w) → s'.isDone w) ∧
    ∃ as s', Act.abort ∉ as ∧ D.drv.Run nth m as s' :=
  ⟨(Drv.terminates (faithful hs) hd nth).1, (Drv.terminates (faithful hs) hd nth).2,
    let ⟨_, s', h⟩ := Drv.run_exists (faithful hs) hd nth
    ⟨_, s', h⟩⟩

/-- C42 for annular arrays. -/
theorem C42_annu_user_outcome (hs : D.Sized m) (hd : D.drv.Defined m) (nth : Nat)
    (h1 : 1 ≤ nth) (as : List Act) (hab : Act.abort ∉ as) (s' : Sys F (Prog F SIRError))
    (hr : D.drv.Run nth m as s') :
    wrapper s'.running (returned nth s') =
      (open Classical in
      if ∃ n, n < D.No ∧ D.drv.PointErr m n .outOfBounds then
        (if 2 ≤ nth then .errOutOfBounds else .errCtrlC)
      else if (∃ n, n < D.No ∧ D.drv.PointErr m n .warnOutOfBounds) ∧ 2 ≤ nth then
        .valueWithWarning
      else .value) :=
  Drv.user_outcome (D := D.drv) (faithful hs) hd nth h1 as hab s' hr

end Runs

section Examples
attribute [local instance] toyArith

/-- A disc and one ring. -/
@[reducible] def toyAnnu : AnnuPar Int where
  numRadii := 3
  Gr := { size := 3, data := fun i => [2, 2, 4].getD i 0 }
  focMet := .none
  focal := { size := 1, data := fun _ => 0 }
  doApod := false
  apod := { size := 0, data := fun _ => 0 }
  apodMet := .triangle
  apodPar := 0

@[reducible] def toyAnnuCall (level : ErrorLevel) : AnnuCall Int where
  A := toyAnnu
  p := { dx := 2, dy := 2, dt := 1, delay := 0, v := 100, cp := 1000 }
  att := none
  nt := 12
  ty := .signed
  level := level
  No := 2
  Ro := { size := 6, data := fun i => [0, 40, 0, 0, 5, 5].getD i 0 }
  delayType := .single
  delay := { size := 1, data := fun _ => 0 }
  fuel := 9

theorem toyAnnu_sized (l : ErrorLevel) : (toyAnnuCall l).Sized toyOut where
  arr := ⟨by show 1 ≤ 3; decide, Nat.le_refl _, by show 1 ≤ 1; decide, fun h => by cases h⟩
  ro := rfl
  delay := rfl
  out := rfl
  delays := by
    intro n hn q hq
    have h2 : n < 2 := by simpa [AnnuPar.numElements] using hn
    have : n = 0 ∨ n = 1 := by omega
    rcases this with rfl | rfl <;> (have : (Outcome.ok 0 : Outcome Int) = .ok q := hq) <;>
      simp only [Outcome.ok.injEq] at this <;> omega

theorem toyAnnu_some (l : ErrorLevel) (n : Nat) (h : n < 2) :
    (match (toyAnnuCall l).drv.serialAt n 0 toyOut with | .ok _ => true | _ => false) = true := by
  have : n = 0 ∨ n = 1 := by omega
  rcases this with rfl | rfl <;> cases l <;> decide +kernel

example (l : ErrorLevel) : (toyAnnuCall l).Sized toyOut ∧ (toyAnnuCall l).drv.Defined toyOut := by
  refine ⟨toyAnnu_sized l, fun n hn => ?_⟩
  have h := toyAnnu_some l n hn
  cases hr : (toyAnnuCall l).drv.serialAt n 0 toyOut with
  | ok r => exact ⟨0, r, hr⟩
  | ub e => rw [hr] at h; simp at h
  | fuel => rw [hr] at h; simp at h

end Examples

/-! ### Exact arithmetic -/

/-- C21: in exact arithmetic a ring without delay is added one sample late. -/
theorem C21_zero_delay_shift (ty : IdxTy) (hring : Buf ℝ) (nt : ℕ) (w : ℝ) (n : ℕ) (dt : ℝ)
    (hsz : (n + 1) * nt ≤ hring.size) (c : ℕ → ℝ) :
    ∃ c', (superposAnnular ty hring nt w 0 n dt).runCol nt c = .ok (c', ()) ∧
      (0 < nt → c' 0 = c 0) ∧
      ∀ i, i + 1 < nt → c' (i + 1) = c (i + 1) + w * hring.data (n * nt + i) := by
  have hq : castIdx ty (rint ((0 : ℝ) /. dt)) = .ok 0 := by
    have : rintR ((0 : ℝ) / dt) = 0 := by
      rw [zero_div]
      have := rintR_intCast 0
      simpa using this
    simp only [r_rint, r_div, this, castIdx]
    cases ty <;> simp [IdxTy.fits]
  refine ⟨_, C21_superpos ty hring nt w 0 n dt hsz 0 hq (by norm_num) c, ?_, ?_⟩
  · intro h
    rw [if_pos h]
    simp
  · intro i hi
    rw [if_pos hi, if_pos (by push_cast; omega)]
    simp

/-- C21: for the focusing methods of the toolbox the delay index is not negative when the radii
increase, so the annular function is safe. -/
theorem C21_focusing_safe (A : AnnuPar ℝ) (hm : A.focMet ≠ .ud) (cp dt : ℝ)
    (hcp : 0 < cp) (hdt : 0 < dt) (h0 : ∀ n < A.numRadii, 0 ≤ A.Gr.data n)
    (hinc : ∀ i j, i ≤ j → j < A.numRadii → A.Gr.data i ≤ A.Gr.data j) (ty : IdxTy) :
    ∀ n, n < A.numElements → ∀ q, castIdx ty (rint (A.ringDelay cp n /. dt)) = .ok q →
      0 ≤ q + 1 := by
  intro n hn q hq
  have hE : A.numElements = (A.numRadii + 1) / 2 := rfl
  have hr0 : ∀ k < A.numElements, 0 ≤ A.ringRadius k := by
    intro k hk
    simp only [AnnuPar.ringRadius]
    split
    · simp
    · have h1 := h0 (2 * k) (by omega)
      have h2 := h0 (2 * k - 1) (by omega)
      simp only [r_div, r_add, r_lit]
      push_cast
      positivity
  have hle : A.ringRadius n ≤ A.ringRadius (A.numElements - 1) := by
    by_cases hn0 : n = 0
    · have := hr0 (A.numElements - 1) (by omega)
      simpa [AnnuPar.ringRadius, hn0] using this
    · simp only [AnnuPar.ringRadius]
      rw [if_neg hn0, if_neg (by omega)]
      have h1 := hinc (2 * n) (2 * (A.numElements - 1)) (by omega) (by omega)
      have h2 := hinc (2 * n - 1) (2 * (A.numElements - 1) - 1) (by omega) (by omega)
      simp only [r_div, r_add, r_lit]
      push_cast
      linarith
  have hn0 := hr0 n hn
  have hd : 0 ≤ A.ringDelay cp n := by
    simp only [AnnuPar.ringDelay]
    generalize (if A.focMet = FocusMet.ud then A.focal.data n else A.focal.data 0) = f
    have key : 0 ≤ (Real.sqrt (A.ringRadius (A.numElements - 1) * A.ringRadius (A.numElements - 1)
        + f * f) - Real.sqrt (A.ringRadius n * A.ringRadius n + f * f)) * 1000 / cp := by
      apply div_nonneg _ hcp.le
      apply mul_nonneg _ (by norm_num)
      rw [sub_nonneg]
      apply Real.sqrt_le_sqrt
      nlinarith
    cases hmm : A.focMet with
    | ud => exact absurd hmm hm
    | x => simpa [focusingAnnular] using key
    | y => simpa [focusingAnnular] using key
    | xy => simpa [focusingAnnular] using key
    | x_y => simpa [focusingAnnular] using key
    | _ => simp [focusingAnnular]
  have h2 : (0 : ℝ) ≤ A.ringDelay cp n / dt := div_nonneg hd hdt.le
  have hnear := rintR_near (A.ringDelay cp n / dt)
  rw [abs_le] at hnear
  have hqq : q = rintR (A.ringDelay cp n / dt) := by
    simp only [r_rint, r_div, castIdx] at hq
    split at hq
    · simpa using hq.symm
    · simp at hq
  have h3 : (-1 : ℝ) < (q : ℝ) := by rw [hqq]; linarith
  have h4 : -1 < q := by exact_mod_cast h3
  omega

/-- C22: gapless rings (every inner radius is the outer radius of the previous ring) without
focusing and apodization add up to the full disc with the outermost radius, one sample late. -/
theorem C22_gapless (A : AnnuPar ℝ) (hA : A.Sized) (nt : ℕ) (ty : IdxTy)
    (level : ErrorLevel) (att : Option (AttResp ℝ)) (p : Par ℝ) (xo yo zo : ℝ) (fuel : ℕ)
    (disc : ℕ → Buf ℝ) (code : ℕ → SIRError)
    (hd : ∀ n, n < A.numRadii → A.DiscIs nt ty level att p xo yo zo fuel n (disc n) (code n))
    (hc : ∀ n, n < A.numRadii → code n ≠ .outOfBounds)
    (hfoc : A.focMet = .none) (hap : A.doApod = false) (hpos : epsilon < A.Gr.data 0)
    (hgap : ∀ n, 1 ≤ n → n < A.numElements → A.Gr.data (2 * n - 1) = A.Gr.data (2 * n - 2))
    (c : ℕ → ℝ) :
    ∃ c', (annuSerial A nt ty level att p xo yo zo fuel).runCol nt c =
        .ok (c', code (A.numRadii - 1)) ∧
      (0 < nt → c' 0 = 0) ∧
      ∀ i, i + 1 < nt → c' (i + 1) = (disc (2 * (A.numElements - 1))).data i := by
  have hE : A.numElements = (A.numRadii + 1) / 2 := rfl
  have h1 := hA.radii
  have hq : ∀ n, n < A.numElements →
      castIdx ty (rint (A.ringDelay p.cp n /. p.dt)) = .ok 0 ∧ (0 : ℤ) ≤ 0 + 1 := by
    intro n _
    have h0 : A.ringDelay p.cp n = 0 := by simp [AnnuPar.ringDelay, hfoc, focusingAnnular]
    refine ⟨?_, by norm_num⟩
    have : rintR ((0 : ℝ) / p.dt) = 0 := by
      rw [zero_div]
      have := rintR_intCast 0
      simpa using this
    simp only [h0, r_rint, r_div, this, castIdx]
    cases ty <;> simp [IdxTy.fits]
  have hsame : ∀ n, 1 ≤ n → n < A.numElements → disc (2 * n - 1) = disc (2 * n - 2) := by
    intro n hn hn2
    have a := hd (2 * n - 1) (by omega)
    have b := hd (2 * n - 2) (by omega)
    unfold AnnuPar.DiscIs at a b
    have hne : ¬ le (A.Gr.data 0) (epsilon : ℝ) = true := by
      simp only [r_le, not_le]; exact hpos
    rw [if_neg (by tauto), hgap n hn hn2] at a
    rw [if_neg (by tauto), a] at b
    simp only [Outcome.ok.injEq, Prod.mk.injEq] at b
    exact b.1
  have hfold : ∀ (k i : ℕ), k < A.numElements →
      (List.range (k + 1)).foldl (fun s n => s +. A.ringWeight n *.
          (if (0 : ℤ) + 1 ≤ ((i + 1 : ℕ) : ℤ) then ringSample disc n (i + 1 - ((0 : ℤ) + 1).toNat)
            else lit 0)) (lit 0) = (disc (2 * k)).data i := by
    intro k i hk
    have hone : (0 : ℤ) + 1 ≤ ((i + 1 : ℕ) : ℤ) := by push_cast; omega
    have hidx : i + 1 - ((0 : ℤ) + 1).toNat = i := by simp
    induction k with
    | zero =>
      simp [ringSample, AnnuPar.ringWeight, hap]
    | succ k ih =>
      rw [List.range_succ, List.foldl_append, ih (by omega)]
      simp only [List.foldl_cons, List.foldl_nil, ringSample, AnnuPar.ringWeight, hap, r_add, r_mul,
        r_lit, r_sub]
      have h2 := hsame (k + 1) (by omega) hk
      rw [show 2 * (k + 1) - 2 = 2 * k by omega] at h2
      rw [if_pos hone, if_neg (show ¬ k + 1 = 0 by omega), h2]
      simp
  refine ⟨_, C22_rings A hA nt ty level att p xo yo zo fuel disc code hd hc (fun _ => 0) hq c, ?_,
    ?_⟩
  · intro h
    simp only [if_pos h]
    have : ∀ k : ℕ, (List.range k).foldl (fun s n => s +. A.ringWeight n *.
        (if (0 : ℤ) + 1 ≤ ((0 : ℕ) : ℤ) then ringSample disc n (0 - ((0 : ℤ) + 1).toNat)
          else lit 0)) (lit 0) = (0 : ℝ) := by
      intro k
      induction k with
      | zero => simp
      | succ k ih => rw [List.range_succ, List.foldl_append, ih]; simp
    exact this _
  · intro i hi
    simp only [if_pos hi]
    obtain ⟨k, hk⟩ : ∃ k, A.numElements = k + 1 := ⟨A.numElements - 1, by omega⟩
    rw [hk]
    have := hfold k i (by omega)
    rw [this]
    rfl

/-- C22: with an even number of radii the last disc contributes nothing: the column is that of the
array without the last radius (only its error code is reported; any arithmetic). -/
theorem C22_even_last_ignored (A : AnnuPar F) (hA : A.Sized) (k : Nat) (hk : A.numRadii = 2 * k + 2)
    (nt : Nat) (ty : IdxTy)
    (level : ErrorLevel) (att : Option (AttResp F)) (p : Par F) (xo yo zo : F) (fuel : Nat)
    (disc : Nat → Buf F) (code : Nat → SIRError)
    (hd : ∀ n, n < A.numRadii → A.DiscIs nt ty level att p xo yo zo fuel n (disc n) (code n))
    (hc : ∀ n, n < A.numRadii → code n ≠ .outOfBounds)
    (hq : ∀ n, n < A.numElements → ∃ q,
      castIdx ty (rint (A.ringDelay p.cp n /. p.dt)) = .ok q ∧ 0 ≤ q + 1) (c : Nat → F) :
    ∃ c', (annuSerial A nt ty level att p xo yo zo fuel).runCol nt c =
        .ok (c', code (2 * k + 1)) ∧
      (annuSerial { A with numRadii := 2 * k + 1, Gr := { A.Gr with size := 2 * k + 1 } }
        nt ty level att p xo yo zo fuel).runCol nt c = .ok (c', code (2 * k)) := by
  have hE : A.numElements = k + 1 := by simp only [AnnuPar.numElements]; omega
  obtain ⟨q, hq'⟩ : ∃ q : Nat → Int, ∀ n, n < A.numElements →
      castIdx ty (rint (A.ringDelay p.cp n /. p.dt)) = .ok (q n) ∧ 0 ≤ q n + 1 := by
    have : ∀ n, ∃ q : Int, n < A.numElements →
        castIdx ty (rint (A.ringDelay p.cp n /. p.dt)) = .ok q ∧ 0 ≤ q + 1 := by
      intro n
      by_cases hn : n < A.numElements
      · obtain ⟨q, h⟩ := hq n hn; exact ⟨q, fun _ => h⟩
      · exact ⟨0, fun h => absurd h hn⟩
    exact Classical.axiomOfChoice this
  let B : AnnuPar F := { A with numRadii := 2 * k + 1, Gr := { A.Gr with size := 2 * k + 1 } }
  have hBE : B.numElements = A.numElements := by
    rw [hE]; simp only [B, AnnuPar.numElements]; omega
  have hB : B.Sized := by
    refine ⟨by simp [B], Nat.le_refl _, ?_, ?_⟩
    · rw [hBE]; exact hA.focal
    · rw [hBE]; exact hA.apod
  have hBd : ∀ n, B.ringDelay p.cp n = A.ringDelay p.cp n := by
    intro n
    simp only [AnnuPar.ringDelay, hBE]
    rfl
  have hBw : ∀ n, B.ringWeight n = A.ringWeight n := by
    intro n
    simp only [AnnuPar.ringWeight, hBE]
    rfl
  have h1 := C22_rings A hA nt ty level att p xo yo zo fuel disc code hd hc q hq' c
  have h2 := C22_rings B hB nt ty level att p xo yo zo fuel disc code
    (fun n hn => hd n (by have : n < 2 * k + 1 := hn; omega))
    (fun n hn => hc n (by have : n < 2 * k + 1 := hn; omega)) q
    (fun n hn => by rw [hBd]; exact hq' n (by rw [← hBE]; exact hn)) c
  refine ⟨(fun i => if i < nt then
        (List.range A.numElements).foldl (fun s n => s +. A.ringWeight n *.
          (if q n + 1 ≤ (i : Int) then ringSample disc n (i - (q n + 1).toNat) else lit 0))
          (lit 0) else c i), ?_, ?_⟩
  · rw [h1, hk]; rfl
  · have e : (annuSerial { A with numRadii := 2 * k + 1, Gr := { A.Gr with size := 2 * k + 1 } }
        nt ty level att p xo yo zo fuel) = annuSerial B nt ty level att p xo yo zo fuel := rfl
    rw [e, h2]
    simp only [hBE, hBw]
    rfl

end Dream
