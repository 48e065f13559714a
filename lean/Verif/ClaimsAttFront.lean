import Verif.AttFront
import Verif.ClaimsAnaFront
import Verif.ClaimsAtt
import Verif.ClaimsAttLaw
import Verif.Toy

/-
C69: the MATLAB and Octave functions `dream_att`.
-/

namespace Dream
open Arith Finset

section General
variable {F : Type} [Arith F]

/-! ### Specification -/

/-- All arguments are matrices. -/
structure AttArgs.Typed (x : AttArgs F) : Prop where
  ro : x.ro.IsMatrix
  sPar : x.sPar.IsMatrix
  delay : x.delay.IsMatrix
  mPar : x.mPar.IsMatrix

/-- The integers the response length can be converted to: `size_t` in MATLAB, `int` in Octave. -/
def LenFits (fe : FrontEnd) (t : Int) : Prop :=
  match fe with
  | .octave => -2147483648 ≤ t ∧ t < 2147483648
  | _ => 0 ≤ t ∧ t < 2 ^ 64

/-- The arguments are as documented, with `No` points and length `nt`.  `delay` is as checked: an empty
one should not be allowed. -/
structure AttDoc (fe : FrontEnd) (x : AttArgs F) (No nt : Nat) : Prop where
  ro : x.ro.shape = [No, 3]
  small : fe = .octave → No < 2147483648
  sPar : x.sPar.VecOf 2
  len : trunc (x.sPar.data 1) = some (nt : Int)
  fits : LenFits fe nt
  delay : x.delay.size = 0 ∨ x.delay.size = 1 ∨ x.delay.size = No
  mPar : x.mPar.VecOf 2

/-- Distance of point `n` of `No` from the origin. -/
def AttArgs.dist (x : AttArgs F) (No n : Nat) : F :=
  sqrt (x.ro.data n *. x.ro.data n +. x.ro.data (n + No) *. x.ro.data (n + No)
    +. x.ro.data (n + 2 * No) *. x.ro.data (n + 2 * No))

/-- Travel time to point `n` after its delay, in samples. -/
def AttArgs.travel (x : AttArgs F) (No n : Nat) : F :=
  (x.dist No n *. lit 1000 /. x.mPar.data 0 -. x.delay.data (if x.delay.size = 1 then 0 else n))
    /. x.sPar.data 0

/-- The computation meant by the arguments. -/
def AttArgs.meant (fe : FrontEnd) (x : AttArgs F) (No nt : Nat) : AttCall F :=
  { P := { len := nt, dt := x.sPar.data 0, alpha := x.mPar.data 1 }
    No := No
    Ro := ⟨No * 3, x.ro.data⟩
    cp := x.mPar.data 0
    delay := ⟨x.delay.size, x.delay.data⟩
    ty := fe.idx }

/-- The loop that is run. -/
def attRun (L : FFTLib F) (fe : FrontEnd) (D : AttCall F) (xc : Buf (F × F)) (x m : Buf F) :
    Outcome (Buf F) :=
  if fe = .octave then dreamAtt32 L D xc x m else dreamAtt L D xc x m

theorem castLen_good {fe : FrontEnd} (hfe : fe.mo) {y : F} {t : Int} (h : trunc y = some t)
    (hf : LenFits fe t) : castLen fe (trunc y) = .ok t := by
  rw [h]
  rcases hfe with rfl | rfl
  · show castIdx .unsigned (some t) = _
    simp only [castIdx]
    rw [if_pos]
    have : 0 ≤ t ∧ t < 2 ^ 64 := hf
    simpa [IdxTy.fits] using this
  · show int32 t = _
    have : -2147483648 ≤ t ∧ t < 2147483648 := hf
    unfold int32
    rw [if_pos (by omega)]

theorem castLen_bad {fe : FrontEnd} (hfe : fe.mo) {y : F}
    (h : ¬ ∃ t, trunc y = some t ∧ LenFits fe t) : castLen fe (trunc y) = .ub .cast := by
  cases hy : trunc y with
  | none => rcases hfe with rfl | rfl <;> rfl
  | some t =>
    rcases hfe with rfl | rfl
    · show castIdx .unsigned (some t) = _
      simp only [castIdx]
      rw [if_neg]
      intro g
      exact h ⟨t, hy, show 0 ≤ t ∧ t < 2 ^ 64 by simpa [IdxTy.fits] using g⟩
    · show int32 t = _
      unfold int32
      rw [if_neg]
      intro g
      refine h ⟨t, hy, ?_⟩
      show -2147483648 ≤ t ∧ t < 2147483648
      omega

theorem keepCount_eq {fe : FrontEnd} {No : Nat} (h : fe = .octave → No < 2147483648) :
    keepCount fe No = No := by
  cases fe with
  | octave =>
    have := h rfl
    show ((No : Int) + 2147483648) % 4294967296 - 2147483648 = No
    omega
  | _ => rfl

/-- The three kinds of outcome of `dream_att`. -/
inductive AttOutcome (L : FFTLib F) (fe : FrontEnd) (xc0 : Nat → F × F) (x0 : Nat → F) (x : AttArgs F) :
    Outcome (Front (Buf F)) → Prop
  /-- documented arguments: the meant computation, on a cleared result -/
  | started (No nt : Nat) : AttDoc fe x No nt → AttOutcome L fe xc0 x0 x
      ((attRun L fe (x.meant fe No nt) ⟨nt, xc0⟩ ⟨nt, x0⟩ (zeroVec (No * nt))).bind fun h => .ok (.call h))
  /-- undocumented arguments: an error message -/
  | refused : (¬ ∃ No nt, AttDoc fe x No nt) → AttOutcome L fe xc0 x0 x (.ok (.rejected true))
  /-- a length that cannot be converted -/
  | badLength (No : Nat) : x.ro.shape = [No, 3] → x.sPar.VecOf 2 →
      (¬ ∃ t, trunc (x.sPar.data 1) = some t ∧ LenFits fe t) → AttOutcome L fe xc0 x0 x (.ub .cast)

/-- C69: whatever the arguments (matrices of any shape and content; in Octave fewer than 2^31 points),
`dream_att` does the meant computation for documented arguments, refuses others with a message, and is
otherwise undefined only when the length cannot be converted. -/
theorem C69_outcomes (L : FFTLib F) (fe : FrontEnd) (hfe : fe.mo) (xc0 : Nat → F × F) (x0 : Nat → F)
    (x : AttArgs F) (hx : x.Typed) (hsm : fe = .octave → ∀ No, x.ro.shape = [No, 3] → No < 2147483648) :
    AttOutcome L fe xc0 x0 x (frontAtt L fe xc0 x0 x) := by
  obtain ⟨rows, cols, hro⟩ := hx.ro
  unfold frontAtt
  rw [checkObs_eq fe hro]
  by_cases h3 : cols = 3
  swap
  · rw [if_neg h3, Outcome.ok_bind, failMsg_next]
    refine .refused ?_
    rintro ⟨No, nt, d⟩
    have := d.ro
    rw [hro] at this
    simp at this
    exact h3 this.2
  subst h3
  rw [if_pos rfl, Outcome.ok_bind, ret_next]
  beta_reduce
  have hk := keepCount_eq (fe := fe) (No := rows) (fun g => hsm g rows hro)
  dsimp only
  rw [hk, Int.toNat_natCast, parsePair_eq hfe hx.sPar]
  by_cases hs : x.sPar.VecOf 2
  swap
  · rw [if_neg hs, Outcome.ok_bind, failMsg_next]
    refine .refused ?_
    rintro ⟨No, nt, d⟩
    exact hs d.sPar
  rw [if_pos hs, Outcome.ok_bind, ret_next]
  dsimp only
  by_cases hl : ∃ t, trunc (x.sPar.data 1) = some t ∧ LenFits fe t
  swap
  · rw [castLen_bad hfe hl]
    exact .badLength rows hro hs hl
  obtain ⟨t, ht, hf⟩ := hl
  rw [castLen_good hfe ht hf, Outcome.ok_bind]
  beta_reduce
  rw [checkDelay_eq fe (hx.delay.vecArg hfe) rows]
  by_cases hd : x.delay.size = 0 ∨ x.delay.size = 1 ∨ x.delay.size = rows
  swap
  · rw [if_neg (by omega), Outcome.ok_bind, failMsg_next]
    refine .refused ?_
    rintro ⟨No, nt, d⟩
    have := d.ro
    rw [hro] at this
    simp at this
    subst this
    exact hd d.delay
  rw [if_pos (by omega), Outcome.ok_bind, ret_next]
  beta_reduce
  rw [parsePair_eq hfe hx.mPar]
  by_cases hm : x.mPar.VecOf 2
  swap
  · rw [if_neg hm, Outcome.ok_bind, failMsg_next]
    refine .refused ?_
    rintro ⟨No, nt, d⟩
    exact hm d.mPar
  rw [if_pos hm, Outcome.ok_bind, ret_next]
  dsimp only
  unfold allocOut
  by_cases h0 : t < 0
  · rw [if_pos h0]
    refine .refused ?_
    rintro ⟨No, nt, d⟩
    have := d.len
    rw [ht] at this
    simp at this
    omega
  rw [if_neg h0]
  beta_reduce
  rw [if_neg (by omega), Int.toNat_natCast]
  have hbuf : x.ro.buf = ⟨rows * 3, x.ro.data⟩ := by simp [Arg.buf, Arg.size, hro]
  have e : ((t.toNat : Nat) : Int) = t := by omega
  have := AttOutcome.started (L := L) (xc0 := xc0) (x0 := x0) rows t.toNat
    (⟨hro, fun g => hsm g rows hro, hs, by rw [e]; exact ht, by rw [e]; exact hf, hd, hm⟩ :
      AttDoc fe x rows t.toNat)
  convert this using 2
  unfold attRun AttArgs.meant
  rw [hbuf]
  rcases hfe with rfl | rfl <;> rfl

/-! ### The result -/

/-- Every arrival index is a number of the type that holds it, and the index arithmetic of the Octave
version fits 32 bits. -/
structure AttInRange (fe : FrontEnd) (x : AttArgs F) (No nt : Nat) (it : Nat → Int) : Prop where
  trunc : ∀ n, n < No → trunc (x.travel No n +. lit 1) = some (it n)
  fits : ∀ n, n < No → LenFits fe (it n)
  points : fe = .octave → 3 * No ≤ 2147483648
  samples : fe = .octave → (No - 1) * nt < 2147483648

theorem int32_of {t : Int} (h : -2147483648 ≤ t ∧ t < 2147483648) : int32 t = .ok t := by
  unfold int32; rw [if_pos (by omega)]

theorem int32_not {t : Int} (h : ¬ (-2147483648 ≤ t ∧ t < 2147483648)) : int32 t = .ub .cast := by
  unfold int32; rw [if_neg (by omega)]

theorem meant_sized {fe : FrontEnd} {x : AttArgs F} {No nt : Nat} (d : AttDoc fe x No nt) (h1 : 1 ≤ nt)
    (hd : x.delay.size ≠ 0) : (x.meant fe No nt).Sized (zeroVec (No * nt)) where
  len := h1
  ro := by show No * 3 = 3 * No; omega
  delay := d.delay.resolve_left hd
  out := rfl

theorem meant_time (fe : FrontEnd) (x : AttArgs F) (No nt n : Nat) :
    (x.meant fe No nt).time n = x.travel No n +. lit 1 := rfl

theorem fits_cast {fe : FrontEnd} (hfe : fe.mo) {y : F} {t : Int} (h : trunc y = some t)
    (hf : LenFits fe t) : castIdx fe.idx (trunc y) = .ok t := by
  rw [h]
  simp only [castIdx]
  rw [if_pos]
  rcases hfe with rfl | rfl
  · have : 0 ≤ t ∧ t < 2 ^ 64 := hf
    simpa [FrontEnd.idx, IdxTy.fits] using this
  · have : -2147483648 ≤ t ∧ t < 2147483648 := hf
    simp only [FrontEnd.idx, IdxTy.fits, decide_eq_true_eq]
    omega

theorem forO_congr_ok {σ : Type} (f g : Nat → σ → Outcome σ) (k : Nat) : ∀ (start : Nat) (s : σ),
    (∀ i, start ≤ i → i < start + k → ∀ s, f i s = g i s) → forO f k start s = forO g k start s := by
  induction k with
  | zero => intro start s _; rfl
  | succ k ih =>
    intro start s h
    simp only [forO]
    rw [h start (Nat.le_refl _) (by omega)]
    congr 1
    funext s'
    exact ih (start + 1) s' fun i h1 h2 => h i (by omega) (by omega)

theorem attRun_eq (L : FFTLib F) {fe : FrontEnd} (hfe : fe.mo) {x : AttArgs F} {No nt : Nat}
    (d : AttDoc fe x No nt) (h1 : 1 ≤ nt) (hd : x.delay.size ≠ 0) {it : Nat → Int}
    (hr : AttInRange fe x No nt it) (xc : Buf (F × F)) (y m : Buf F) :
    attRun L fe (x.meant fe No nt) xc y m = dreamAtt L (x.meant fe No nt) xc y m := by
  unfold attRun
  by_cases ho : fe = .octave
  swap
  · rw [if_neg ho]
  rw [if_pos ho]
  unfold dreamAtt32 dreamAtt
  refine forO_congr_ok _ _ _ _ _ fun n _ hn m => ?_
  have hn' : n < No := by simpa [AttArgs.meant] using hn
  have e1 : int32 ((n : Int) + 2 * (x.meant fe No nt).No) = .ok _ := int32_of (by
    have := hr.points ho
    show -2147483648 ≤ (n : Int) + 2 * (No : Int) ∧ (n : Int) + 2 * (No : Int) < 2147483648
    omega)
  have e2 := (x.meant fe No nt).arrive_eq (meant_sized d h1 hd) n hn' (it n)
    (by rw [meant_time]; exact fits_cast hfe (hr.trunc n hn') (hr.fits n hn'))
  have e3 : int32 (it n) = .ok (it n) := by
    have := hr.fits n hn'
    subst ho
    exact int32_of this
  have e4 : int32 ((n : Int) * (x.meant fe No nt).P.len) = .ok _ := int32_of (by
    have := hr.samples ho
    have h5 : n * nt ≤ (No - 1) * nt := Nat.mul_le_mul_right _ (by omega)
    show -2147483648 ≤ (n : Int) * (nt : Int) ∧ (n : Int) * (nt : Int) < 2147483648
    have : (n : Int) * (nt : Int) = ((n * nt : Nat) : Int) := by push_cast; rfl
    omega)
  rw [e1, Outcome.ok_bind, e2, Outcome.ok_bind, Outcome.ok_bind, e3, Outcome.ok_bind, e4, Outcome.ok_bind]

theorem frontAtt_doc (L : FFTLib F) (fe : FrontEnd) (hfe : fe.mo) (xc0 : Nat → F × F) (x0 : Nat → F)
    (x : AttArgs F) (hx : x.Typed) {No nt : Nat} (d : AttDoc fe x No nt) :
    frontAtt L fe xc0 x0 x =
      (attRun L fe (x.meant fe No nt) ⟨nt, xc0⟩ ⟨nt, x0⟩ (zeroVec (No * nt))).bind fun h => .ok (.call h) := by
  have key := C69_outcomes L fe hfe xc0 x0 x hx (by
    intro g No' h'
    have := d.ro
    rw [h'] at this
    simp at this
    have := d.small g
    omega)
  generalize frontAtt L fe xc0 x0 x = o at key
  cases key with
  | started No' nt' d' =>
    have e1 : No' = No := by have := d'.ro; rw [d.ro] at this; simpa using this.symm
    have e2 : nt' = nt := by have := d'.len; rw [d.len] at this; simpa using this.symm
    subst e1 e2; rfl
  | refused g => exact absurd ⟨No, nt, d⟩ g
  | badLength No' _ _ g => exact absurd ⟨_, d.len, d.fits⟩ g

/-- C69: with documented arguments, at least one sample, at least one delay and everything in range,
`dream_att` returns a matrix whose column `n` is the absorption response for the distance of point `n`
and the integral part of its travel time plus one. -/
theorem C69_columns (L : FFTLib F) (fe : FrontEnd) (hfe : fe.mo) (xc0 : Nat → F × F) (x0 : Nat → F)
    (x : AttArgs F) (hx : x.Typed) (No nt : Nat) (d : AttDoc fe x No nt) (h1 : 1 ≤ nt)
    (hd : x.delay.size ≠ 0) (it : Nat → Int) (hr : AttInRange fe x No nt it) :
    ∃ h, frontAtt L fe xc0 x0 x = .ok (.call h) ∧ h.size = No * nt ∧
      ∀ n, n < No → ∀ i, i < nt → h.data (n * nt + i) =
        lit 0 +. lit 1 *. attResp L ⟨nt, x.sPar.data 0, x.mPar.data 1⟩ (x.dist No n) (it n) i := by
  rw [frontAtt_doc L fe hfe xc0 x0 x hx d, attRun_eq L hfe d h1 hd hr]
  obtain ⟨h, e1, e2, e3⟩ := C43_columns L (x.meant fe No nt) ⟨nt, xc0⟩ ⟨nt, x0⟩ (zeroVec (No * nt))
    (meant_sized d h1 hd) rfl rfl it
    (fun n hn => by rw [meant_time]; exact fits_cast hfe (hr.trunc n hn) (hr.fits n hn))
  rw [e1]
  exact ⟨h, rfl, e2, e3⟩

/-! ### What goes wrong -/

theorem forO_ub {σ : Type} (f : Nat → σ → Outcome σ) (hf : ∀ i s, f i s ≠ .fuel) (k : Nat) :
    ∀ (start j : Nat) (s : σ), start ≤ j → j < start + k → (∀ s, ∃ e, f j s = .ub e) →
      ∃ e, forO f k start s = .ub e := by
  induction k with
  | zero => intro start j s h1 h2; omega
  | succ k ih =>
    intro start j s h1 h2 h3
    simp only [forO]
    by_cases e : j = start
    · subst e
      obtain ⟨e, he⟩ := h3 s
      exact ⟨e, by rw [he]; rfl⟩
    · cases h : f start s with
      | ok s' => exact ih (start + 1) j s' (by omega) (by omega) h3
      | ub e => exact ⟨e, rfl⟩
      | fuel => exact absurd h (hf _ _)

theorem Outcome.bind_ne_fuel {α β : Type} {x : Outcome α} {f : α → Outcome β} (h1 : x ≠ .fuel)
    (h2 : ∀ a, f a ≠ .fuel) : x.bind f ≠ .fuel := by
  cases x with
  | ok a => exact h2 a
  | ub e => simp
  | fuel => exact absurd rfl h1

theorem forO_ne_fuel {σ : Type} (f : Nat → σ → Outcome σ) (hf : ∀ i s, f i s ≠ .fuel) (k : Nat) :
    ∀ (start : Nat) (s : σ), forO f k start s ≠ .fuel := by
  induction k with
  | zero => intro start s; simp [forO]
  | succ k ih => intro start s; exact Outcome.bind_ne_fuel (hf _ _) (fun s' => ih _ s')

omit [Arith F] in
theorem Buf.read_ne_fuel (b : Buf F) (i : Int) : b.read i ≠ .fuel := by
  unfold Buf.read; split <;> simp

omit [Arith F] in
theorem Buf.write_ne_fuel (b : Buf F) (i : Int) (x : F) : b.write i x ≠ .fuel := by
  unfold Buf.write; split <;> simp

theorem int32_ne_fuel (i : Int) : int32 i ≠ .fuel := by
  unfold int32; split <;> simp

theorem att_ne_fuel (L : FFTLib F) (P : AttPar F) (r : F) (it : Int) (ai : F) (xc : Buf (F × F))
    (x : Buf F) (base : Nat) (m : Buf F) : att L P r it ai xc x base m ≠ .fuel := by
  unfold att attX attSpectrum
  refine Outcome.bind_ne_fuel (Outcome.bind_ne_fuel (Outcome.bind_ne_fuel (Buf.write_ne_fuel _ _ _)
    fun _ => forO_ne_fuel _ (fun _ _ => Outcome.bind_ne_fuel (Buf.write_ne_fuel _ _ _) fun _ =>
      Buf.write_ne_fuel _ _ _) _ _ _) fun _ => ?_) fun x => ?_
  · unfold FFTLib.ifft; split
    · simp
    · split <;> simp
  · have : ∀ n, attAdd base x.data ai n m ≠ .fuel := by
      intro n
      induction n with
      | zero => simp [attAdd]
      | succ n ih =>
        refine Outcome.bind_ne_fuel ih fun m' => ?_
        unfold addAt
        exact Outcome.bind_ne_fuel (Buf.read_ne_fuel _ _) fun _ => Buf.write_ne_fuel _ _ _
    exact this _

theorem arrive_ne_fuel (D : AttCall F) (n : Nat) : D.arrive n ≠ .fuel := by
  unfold AttCall.arrive
  refine Outcome.bind_ne_fuel (Buf.read_ne_fuel _ _) fun _ => Outcome.bind_ne_fuel (Buf.read_ne_fuel _ _)
    fun _ => Outcome.bind_ne_fuel (Buf.read_ne_fuel _ _) fun _ => ?_
  dsimp only
  exact Outcome.bind_ne_fuel (Buf.read_ne_fuel _ _) fun _ =>
    Outcome.bind_ne_fuel (castIdx_ne_fuel _ _) fun _ => by simp

/-- One pass of either loop. -/
def attStep (L : FFTLib F) (fe : FrontEnd) (D : AttCall F) (xc : Buf (F × F)) (x : Buf F) (n : Nat)
    (m : Buf F) : Outcome (Buf F) :=
  if fe = .octave then
    (int32 ((n : Int) + 2 * D.No)).bind fun _ =>
    (D.arrive n).bind fun q =>
    (int32 q.2).bind fun it =>
    (int32 ((n : Int) * D.P.len)).bind fun _ =>
    att L D.P q.1 it (lit 1) xc x (n * D.P.len) m
  else (D.arrive n).bind fun q => att L D.P q.1 q.2 (lit 1) xc x (n * D.P.len) m

theorem attRun_step (L : FFTLib F) (fe : FrontEnd) (D : AttCall F) (xc : Buf (F × F)) (x m : Buf F) :
    attRun L fe D xc x m = forO (attStep L fe D xc x) D.No 0 m := by
  unfold attRun attStep
  by_cases ho : fe = .octave
  · simp only [if_pos ho]; rfl
  · simp only [if_neg ho]; rfl

theorem attStep_ne_fuel (L : FFTLib F) (fe : FrontEnd) (D : AttCall F) (xc : Buf (F × F)) (x : Buf F)
    (n : Nat) (m : Buf F) : attStep L fe D xc x n m ≠ .fuel := by
  unfold attStep
  split
  · exact Outcome.bind_ne_fuel (int32_ne_fuel _) fun _ => Outcome.bind_ne_fuel (arrive_ne_fuel _ _)
      fun _ => Outcome.bind_ne_fuel (int32_ne_fuel _) fun _ => Outcome.bind_ne_fuel (int32_ne_fuel _)
      fun _ => att_ne_fuel _ _ _ _ _ _ _ _ _
  · exact Outcome.bind_ne_fuel (arrive_ne_fuel _ _) fun _ => att_ne_fuel _ _ _ _ _ _ _ _ _

theorem Outcome.bind_ub_of {α β : Type} {x : Outcome α} {f : α → Outcome β} (h1 : x ≠ .fuel)
    (h2 : ∀ a, x = .ok a → ∃ e, f a = .ub e) : ∃ e, x.bind f = .ub e := by
  cases x with
  | ok a => exact h2 a rfl
  | ub e => exact ⟨e, rfl⟩
  | fuel => exact absurd rfl h1

/-- A pass that cannot succeed makes the whole call undefined. -/
theorem frontAtt_ub (L : FFTLib F) (fe : FrontEnd) (hfe : fe.mo) (xc0 : Nat → F × F) (x0 : Nat → F)
    (x : AttArgs F) (hx : x.Typed) {No nt : Nat} (d : AttDoc fe x No nt) (n : Nat) (hn : n < No)
    (h : ∀ m, ∃ e, attStep L fe (x.meant fe No nt) ⟨nt, xc0⟩ ⟨nt, x0⟩ n m = .ub e) :
    ∃ e, frontAtt L fe xc0 x0 x = .ub e := by
  rw [frontAtt_doc L fe hfe xc0 x0 x hx d, attRun_step]
  obtain ⟨e, he⟩ := forO_ub _ (attStep_ne_fuel L fe (x.meant fe No nt) ⟨nt, xc0⟩ ⟨nt, x0⟩) No 0 n
    (zeroVec (No * nt)) (by omega) (by omega) h
  exact ⟨e, by rw [show (x.meant fe No nt).No = No from rfl, he]; rfl⟩

/-- C69: with at least one point, an empty delay or a response length of zero (both are accepted) make
the call undefined. -/
theorem C69_empty (L : FFTLib F) (fe : FrontEnd) (hfe : fe.mo) (xc0 : Nat → F × F) (x0 : Nat → F)
    (x : AttArgs F) (hx : x.Typed) (No nt : Nat) (d : AttDoc fe x No nt) (h1 : 1 ≤ No)
    (hd : x.delay.size = 0 ∨ nt = 0) : ∃ e, frontAtt L fe xc0 x0 x = .ub e := by
  refine frontAtt_ub L fe hfe xc0 x0 x hx d 0 (by omega) fun m => ?_
  have key : ∀ q : F × Int, (x.meant fe No nt).arrive 0 = .ok q → ∀ it,
      ∃ e, att L (x.meant fe No nt).P q.1 it (lit 1) ⟨nt, xc0⟩ ⟨nt, x0⟩ (0 * (x.meant fe No nt).P.len) m
        = .ub e := by
    intro q hq it
    rcases hd with hd | hd
    · exfalso
      unfold AttCall.arrive at hq
      obtain ⟨_, _, hq⟩ := Outcome.bind_ok_inv hq
      obtain ⟨_, _, hq⟩ := Outcome.bind_ok_inv hq
      obtain ⟨_, _, hq⟩ := Outcome.bind_ok_inv hq
      obtain ⟨_, hr, _⟩ := Outcome.bind_ok_inv hq
      simp [Buf.read, AttArgs.meant, hd] at hr
    · subst hd
      refine ⟨.oob, ?_⟩
      unfold att attX attSpectrum
      simp [Buf.write]
  unfold attStep
  split
  · exact Outcome.bind_ub_of (int32_ne_fuel _) fun _ _ => Outcome.bind_ub_of (arrive_ne_fuel _ _)
      fun q hq => Outcome.bind_ub_of (int32_ne_fuel _) fun it _ => Outcome.bind_ub_of (int32_ne_fuel _)
      fun _ _ => key q hq it
  · exact Outcome.bind_ub_of (arrive_ne_fuel _ _) fun q hq => key q hq q.2

/-- C69: a point whose travel time (plus one sample) is no number of the index type, in MATLAB for
example any point that the wave front reaches more than a sample before the delay, makes the call
undefined. -/
theorem C69_out_of_range (L : FFTLib F) (fe : FrontEnd) (hfe : fe.mo) (xc0 : Nat → F × F) (x0 : Nat → F)
    (x : AttArgs F) (hx : x.Typed) (No nt : Nat) (d : AttDoc fe x No nt) (hd : x.delay.size ≠ 0)
    (n : Nat) (hn : n < No) (h : ¬ ∃ t, trunc (x.travel No n +. lit 1) = some t ∧ LenFits fe t) :
    ∃ e, frontAtt L fe xc0 x0 x = .ub e := by
  refine frontAtt_ub L fe hfe xc0 x0 x hx d n hn fun m => ?_
  have key : ∀ q : F × Int, (x.meant fe No nt).arrive n = .ok q →
      trunc (x.travel No n +. lit 1) = some q.2 ∧ fe.idx.fits q.2 = true := by
    intro q hq
    unfold AttCall.arrive at hq
    obtain ⟨xo, h1, hq⟩ := Outcome.bind_ok_inv hq
    obtain ⟨yo, h2, hq⟩ := Outcome.bind_ok_inv hq
    obtain ⟨zo, h3, hq⟩ := Outcome.bind_ok_inv hq
    obtain ⟨dl, h4, hq⟩ := Outcome.bind_ok_inv hq
    obtain ⟨it, h5, hq⟩ := Outcome.bind_ok_inv hq
    have hh : castIdx fe.idx (trunc (x.travel No n +. lit 1)) = .ok it := by
      have r1 := Buf.read_nat (x.meant fe No nt).Ro n (by show n < No * 3; omega)
      have r2 := Buf.read_nat (x.meant fe No nt).Ro (n + 1 * No) (by show n + 1 * No < No * 3; omega)
      have r3 := Buf.read_nat (x.meant fe No nt).Ro (n + 2 * No) (by show n + 2 * No < No * 3; omega)
      have r4 : (x.meant fe No nt).delay.read (if (x.meant fe No nt).delay.size = 1 then 0 else (n : Int)) =
          .ok (x.delay.data (if x.delay.size = 1 then 0 else n)) := by
        by_cases e : x.delay.size = 1
        · rw [if_pos e, if_pos (show (x.meant fe No nt).delay.size = 1 from e)]
          exact Buf.read_nat _ 0 (by show 0 < x.delay.size; omega)
        · rw [if_neg e, if_neg (show ¬ (x.meant fe No nt).delay.size = 1 from e)]
          refine Buf.read_nat _ n ?_
          show n < x.delay.size
          have := d.delay
          omega
      rw [r1] at h1
      rw [show (x.meant fe No nt).No = No from rfl, r2] at h2
      rw [show (x.meant fe No nt).No = No from rfl, r3] at h3
      rw [r4] at h4
      cases h1; cases h2; cases h3; cases h4
      rw [Nat.one_mul] at h5
      exact h5
    cases hq
    revert hh
    cases ht : trunc (x.travel No n +. lit 1) with
    | none => simp [castIdx]
    | some t =>
      simp only [castIdx]
      split
      · next g => intro g2; cases g2; exact ⟨rfl, g⟩
      · simp
  unfold attStep
  rcases hfe with rfl | rfl
  · rw [if_neg (by simp)]
    refine Outcome.bind_ub_of (arrive_ne_fuel _ _) fun q hq => ?_
    obtain ⟨g1, g2⟩ := key q hq
    exact absurd ⟨q.2, g1, show 0 ≤ q.2 ∧ q.2 < 2 ^ 64 by simpa [FrontEnd.idx, IdxTy.fits] using g2⟩ h
  · rw [if_pos rfl]
    refine Outcome.bind_ub_of (int32_ne_fuel _) fun _ _ => Outcome.bind_ub_of (arrive_ne_fuel _ _)
      fun q hq => ?_
    obtain ⟨g1, g2⟩ := key q hq
    exact ⟨_, by rw [int32_not fun g => h ⟨q.2, g1, g⟩]; rfl⟩

/-- C69: in Octave the call is undefined when the positions in the points or in the result do not fit
32 bits: more than 2^31 / 3 points, or a last column that begins at or after sample 2^31. -/
theorem C69_octave_size (L : FFTLib F) (xc0 : Nat → F × F) (x0 : Nat → F) (x : AttArgs F) (hx : x.Typed)
    (No nt : Nat) (d : AttDoc .octave x No nt) (h1 : 1 ≤ No)
    (h : 2147483648 < 3 * No ∨ 2147483648 ≤ (No - 1) * nt) : ∃ e, frontAtt L .octave xc0 x0 x = .ub e := by
  refine frontAtt_ub L .octave (.inr rfl) xc0 x0 x hx d (No - 1) (by omega) fun m => ?_
  unfold attStep
  rw [if_pos rfl]
  rcases h with h | h
  · rw [show int32 (((No - 1 : Nat) : Int) + 2 * (x.meant .octave No nt).No) = .ub .cast from
      int32_not (by
        show ¬ (-2147483648 ≤ ((No - 1 : Nat) : Int) + 2 * (No : Int) ∧
          ((No - 1 : Nat) : Int) + 2 * (No : Int) < 2147483648)
        omega)]
    exact ⟨_, rfl⟩
  · refine Outcome.bind_ub_of (int32_ne_fuel _) fun _ _ => Outcome.bind_ub_of (arrive_ne_fuel _ _)
      fun q hq => Outcome.bind_ub_of (int32_ne_fuel _) fun _ _ => ?_
    rw [show int32 (((No - 1 : Nat) : Int) * (x.meant .octave No nt).P.len) = .ub .cast from
      int32_not (by
        show ¬ (-2147483648 ≤ ((No - 1 : Nat) : Int) * (nt : Int) ∧
          ((No - 1 : Nat) : Int) * (nt : Int) < 2147483648)
        have : ((No - 1 : Nat) : Int) * (nt : Int) = (((No - 1) * nt : Nat) : Int) := by push_cast; rfl
        omega)]
    exact ⟨_, rfl⟩

/-- C69: in Octave from 2^31 to 2^32 - 1 points are refused with a message (if the length can be
converted): their number is negative as an `int`. -/
theorem C69_octave_points (L : FFTLib F) (xc0 : Nat → F × F) (x0 : Nat → F) (x : AttArgs F) (hx : x.Typed)
    (No : Nat) (hro : x.ro.shape = [No, 3]) (h1 : 2147483648 ≤ No) (h2 : No < 4294967296)
    (hl : ∃ t, trunc (x.sPar.data 1) = some t ∧ LenFits .octave t) :
    frontAtt L .octave xc0 x0 x = .ok (.rejected true) := by
  have hfe : FrontEnd.octave.mo := .inr rfl
  have hneg : keepCount .octave No < 0 := by
    show ((No : Int) + 2147483648) % 4294967296 - 2147483648 < 0
    omega
  obtain ⟨t, ht, hf⟩ := hl
  unfold frontAtt
  rw [checkObs_eq .octave hro, if_pos rfl, Outcome.ok_bind, ret_next]
  dsimp only
  rw [parsePair_eq hfe hx.sPar]
  by_cases hs : x.sPar.VecOf 2
  swap
  · rw [if_neg hs, Outcome.ok_bind, failMsg_next]
  rw [if_pos hs, Outcome.ok_bind, ret_next]
  dsimp only
  rw [castLen_good hfe ht hf, Outcome.ok_bind, checkDelay_eq .octave (hx.delay.vecArg hfe)]
  split
  swap
  · rw [Outcome.ok_bind, failMsg_next]
  rw [Outcome.ok_bind, ret_next, parsePair_eq hfe hx.mPar]
  split
  swap
  · rw [Outcome.ok_bind, failMsg_next]
  rw [Outcome.ok_bind, ret_next]
  dsimp only
  unfold allocOut
  by_cases h0 : t < 0
  · rw [if_pos h0]
  · rw [if_neg h0]
    beta_reduce
    rw [if_pos hneg]

end General

/-! ### Values in exact arithmetic -/

/-- C69: every column of the result adds up to one. -/
theorem C69_area (fe : FrontEnd) (hfe : fe.mo) (xc0 : ℕ → ℝ × ℝ) (x0 : ℕ → ℝ) (x : AttArgs ℝ)
    (hx : x.Typed) (No nt : ℕ) (d : AttDoc fe x No nt) (h1 : 1 ≤ nt) (hd : x.delay.size ≠ 0)
    (it : ℕ → ℤ) (hr : AttInRange fe x No nt it) :
    ∃ h, frontAtt exactLib fe xc0 x0 x = .ok (.call h) ∧
      ∀ n, n < No → ∑ i ∈ range nt, h.data (n * nt + i) = 1 := by
  rw [frontAtt_doc exactLib fe hfe xc0 x0 x hx d, attRun_eq exactLib hfe d h1 hd hr]
  obtain ⟨h, e1, e2⟩ := C43_area (x.meant fe No nt) ⟨nt, xc0⟩ ⟨nt, x0⟩ (zeroVec (No * nt))
    (meant_sized d h1 hd) rfl rfl it
    (fun n hn => by rw [meant_time]; exact fits_cast hfe (hr.trunc n hn) (hr.fits n hn))
    (fun i _ => by simp [zeroVec])
  rw [e1]
  exact ⟨h, rfl, e2⟩

/-- C69: without attenuation column `n` is a single one, at the integral part of the travel time plus
one, wrapped around at the end of the column. -/
theorem C69_pulse (fe : FrontEnd) (hfe : fe.mo) (xc0 : ℕ → ℝ × ℝ) (x0 : ℕ → ℝ) (x : AttArgs ℝ)
    (hx : x.Typed) (No nt : ℕ) (d : AttDoc fe x No nt) (h1 : 1 ≤ nt) (hd : x.delay.size ≠ 0)
    (it : ℕ → ℤ) (hr : AttInRange fe x No nt it) (ha : x.mPar.data 1 = 0) (hdt : x.sPar.data 0 ≠ 0) :
    ∃ h, frontAtt exactLib fe xc0 x0 x = .ok (.call h) ∧
      ∀ n, n < No → ∀ i, i < nt →
        h.data (n * nt + i) = if i = (it n % nt).toNat then 1 else 0 := by
  rw [frontAtt_doc exactLib fe hfe xc0 x0 x hx d, attRun_eq exactLib hfe d h1 hd hr]
  obtain ⟨h, e1, e2⟩ := C43_pulse (x.meant fe No nt) ⟨nt, xc0⟩ ⟨nt, x0⟩ (zeroVec (No * nt))
    (meant_sized d h1 hd) rfl rfl it
    (fun n hn => by rw [meant_time]; exact fits_cast hfe (hr.trunc n hn) (hr.fits n hn))
    (fun i _ => by simp [zeroVec]) ha hdt
  rw [e1]
  exact ⟨h, rfl, e2⟩

/-- C69: the amplitude of bin `k` of column `n`, strictly between zero and half the sampling rate, is
the loss of `alpha` dB/(cm MHz) over the distance of point `n` at the frequency of the bin. -/
theorem C69_spectrum (fe : FrontEnd) (hfe : fe.mo) (xc0 : ℕ → ℝ × ℝ) (x0 : ℕ → ℝ) (x : AttArgs ℝ)
    (hx : x.Typed) (No nt : ℕ) (d : AttDoc fe x No nt) (h1 : 1 ≤ nt) (hd : x.delay.size ≠ 0)
    (it : ℕ → ℤ) (hr : AttInRange fe x No nt it) (hdt : x.sPar.data 0 ≠ 0) :
    ∃ h, frontAtt exactLib fe xc0 x0 x = .ok (.call h) ∧
      ∀ n, n < No → ∀ k, 0 < k → 2 * k < nt →
        ‖dft nt (fun i => h.data (n * nt + i)) k‖ =
          Real.exp (-lossNeper (x.mPar.data 1) (x.dist No n) (binFreq nt (x.sPar.data 0) k)) := by
  rw [frontAtt_doc exactLib fe hfe xc0 x0 x hx d, attRun_eq exactLib hfe d h1 hd hr]
  obtain ⟨h, e1, e2⟩ := C65_spectrum (x.meant fe No nt) ⟨nt, xc0⟩ ⟨nt, x0⟩ (zeroVec (No * nt))
    (meant_sized d h1 hd) rfl rfl it
    (fun n hn => by rw [meant_time]; exact fits_cast hfe (hr.trunc n hn) (hr.fits n hn))
    (fun i _ => by simp [zeroVec]) hdt
  rw [e1]
  refine ⟨h, rfl, fun n hn k hk hk2 => ?_⟩
  have := e2 n hn k hk (by show 2 * k ≤ nt; omega)
  rw [if_neg (by show ¬ 2 * k = nt; omega)] at this
  rw [show (x.meant fe No nt).P.len = nt from rfl] at this
  rw [this, lawCoef_norm]
  rfl

/-! ### An example: one point at 3 mm, 1 us samples, 4 samples, sound speed 1 mm/us -/

noncomputable def exAttArgs : AttArgs ℝ where
  ro := ⟨[1, 3], fun i => if i = 2 then 3 else 0⟩
  sPar := ⟨[1, 2], fun i => if i = 0 then 1 else 4⟩
  delay := ⟨[1, 1], fun _ => 0⟩
  mPar := ⟨[1, 2], fun i => if i = 0 then 1000 else 0⟩

theorem trunc_four : Arith.trunc (4 : ℝ) = some 4 := by
  rw [r_trunc]; norm_num [truncR]

example : exAttArgs.Typed ∧ AttDoc .octave exAttArgs 1 4 ∧ exAttArgs.delay.size ≠ 0 ∧
    AttInRange .octave exAttArgs 1 4 (fun _ => 4) := by
  refine ⟨⟨⟨_, _, rfl⟩, ⟨_, _, rfl⟩, ⟨_, _, rfl⟩, ⟨_, _, rfl⟩⟩,
    ⟨rfl, fun _ => by norm_num, .inr rfl, ?_, ?_, .inr (.inl ?_), .inr rfl⟩, ?_, ⟨?_, ?_, ?_, ?_⟩⟩
  · simpa [exAttArgs] using trunc_four
  · show (-2147483648 : ℤ) ≤ ((4 : ℕ) : ℤ) ∧ ((4 : ℕ) : ℤ) < 2147483648
    norm_num
  · simp [exAttArgs, Arg.size]
  · simp [exAttArgs, Arg.size]
  · intro n hn
    have : n = 0 := by omega
    subst this
    have e : exAttArgs.travel 1 0 +. lit 1 = 4 := by
      simp only [AttArgs.travel, AttArgs.dist, exAttArgs, r_add, r_mul, r_div, r_sub, r_lit, r_sqrt]
      norm_num
      rw [show (9 : ℝ) = 3 ^ 2 by norm_num, Real.sqrt_sq (by norm_num)]
      norm_num
    rw [e]
    exact trunc_four
  · intro n _
    show (-2147483648 : ℤ) ≤ 4 ∧ (4 : ℤ) < 2147483648
    norm_num
  · intro _; norm_num
  · intro _; norm_num

end Dream
