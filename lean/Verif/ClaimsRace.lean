import Verif.Race
import Verif.ClaimsThreads
import Verif.ClaimsArr
import Verif.ClaimsAnnu
import Verif.ClaimsDas
import Verif.ClaimsCopy
import Verif.ClaimsOla
import Verif.ClaimsCirc
import Verif.ClaimsRect

/-
C75: data races.
-/

namespace Dream
open Arith

variable {F : Type} [Arith F]

/-- Where the workers and the signal handler of a function share their run flag, and whether it is a
`std::atomic<bool>`:
* `sir`: src/dreamrect.cc 37, dreamcirc.cc 37, dreamline.cc 36, dreamrect_f.cc 35, dreamcirc_f.cc 35,
  dreamcylind.cc 37, dreamsphere.cc 36 (atomic);
* `arr`: src/dream_arr_rect.cc 37, dream_arr_circ.cc 37, dream_arr_cylind.cc 36, dream_arr_annu.cc 36
  (atomic);
* `das`: extra_src/das.cc 33 (atomic); `rectSir`: extra_src/rect_sir.cc 33 (atomic);
* `pyFftconv`: extra_src/fftconv_p.cc 34 (atomic);
* `conv`: `volatile int`, extra_src/mex_conv_p.cc 43, oct_conv_p.cc 43, mex_fftconv_p.cc 49,
  oct_fftconv_p.cc 49, julia/src/jl_conv_p.cc 43, jl_fftconv_p.cc 44;
* `sum`: `volatile int`, extra_src/mex_sum_fftconv.cc 44, oct_sum_fftconv.cc 44;
* `ola`: `volatile int`, extra_src/mex_fftconv_ola.cc 44, oct_fftconv_ola.cc 44;
* `copy`: `volatile int`, extra_src/mex_copy_p.cc 47, oct_copy_p.cc 47, oct_add_p.cc 47;
* `circSir`: `int`, extra_src/mex_circ_sir.cc 41, oct_circ_sir.cc 45, mex_scirc_sir.cc 41,
  oct_scirc_sir.cc 42. -/
inductive FlagOf
  | sir | arr | das | rectSir | pyFftconv
  | conv | sum | ola | copy | circSir

def FlagOf.atomic : FlagOf → Bool
  | .sir => true
  | .arr => true
  | .das => true
  | .rectSir => true
  | .pyFftconv => true
  | .conv => false
  | .sum => false
  | .ola => false
  | .copy => false
  | .circSir => false

/-- The flag an analytic function uses. -/
def AnaKind.flag : AnaKind F → FlagOf
  | .rect _ _ => .rectSir
  | _ => .circSir

/-- C75: in every reachable state of every schedule of the single-element functions (with or without
CTRL-C), a worker that is about to access the output matrix does so inside a column of its own range. -/
theorem C75_own_columns {D : SirCall F} {m : Buf F} (hs : D.Sized m) (hd : D.Defined m) (nth : Nat)
    (as : List Act) (s : Sys F (KLoc F)) (he : exec D.task as (initSys D.No nth m) = .ok s) (w : Nat)
    (i : Int) (b : Bool) (h : D.drv.nextAccess s (.worker w) = some (.out i, b)) :
    w < nth ∧ ∃ n, n < D.No ∧ rangeStart D.No nth w ≤ n ∧ n < rangeStop D.No nth w ∧
      (n * D.nt : Int) ≤ i ∧ i < (n * D.nt : Int) + D.nt := by
  obtain ⟨h1, n, h2, h3, h4, h5, h6⟩ := Drv.own_column (D := D.drv) (SirCall.faithful hs) hd nth as s he w i b h
  have e : ((D.drv.base n : Nat) : Int) = (n : Int) * D.nt := by
    show (((n * D.nt : Nat)) : Int) = _
    simp
  rw [e] at h5 h6
  exact ⟨h1, n, h2, h3, h4, h5, h6⟩

/-- C75: single-element functions: no data race under any schedule, with or without signals. -/
theorem C75_sir {D : SirCall F} {m : Buf F} (hs : D.Sized m) (hd : D.Defined m) (nth : Nat)
    (as : List Act) (s : Sys F (KLoc F)) (he : exec D.task as (initSys D.No nth m) = .ok s)
    (signals : Bool) : ¬ D.drv.DataRace FlagOf.sir.atomic signals s :=
  Drv.race_free (SirCall.faithful hs) hd nth as s he signals

/-- C75: array functions. -/
theorem C75_arr {D : ArrCall F} {m : Buf F} (hs : D.Sized m) (hd : D.drv.Defined m) (nth : Nat)
    (as : List Act) (s : Sys F (ALoc F)) (he : exec D.drv.task as (initSys D.No nth m) = .ok s)
    (signals : Bool) : ¬ D.drv.DataRace FlagOf.arr.atomic signals s :=
  Drv.race_free (ArrCall.faithful hs) hd nth as s he signals

/-- C75: annular arrays. -/
theorem C75_annu {D : AnnuCall F} {m : Buf F} (hs : D.Sized m) (hd : D.drv.Defined m) (nth : Nat)
    (as : List Act) (s : Sys F (Prog F SIRError))
    (he : exec D.drv.task as (initSys D.No nth m) = .ok s) (signals : Bool) :
    ¬ D.drv.DataRace FlagOf.arr.atomic signals s :=
  Drv.race_free (AnnuCall.faithful hs) hd nth as s he signals

/-- C75: delay-and-sum. -/
theorem C75_das {C : DasCall F} {Im : Buf F} (h : C.Sized Im) (hr : C.Reads)
    (hk : ∀ n, n < C.No → ∃ k, C.Index n k) (nth : Nat) (as : List Act)
    (s : Sys F (Prog F SIRError)) (he : exec C.drv.task as (initSys C.No nth Im) = .ok s)
    (signals : Bool) : ¬ C.drv.DataRace FlagOf.das.atomic signals s :=
  Drv.race_free (DasCall.faithful h hr hk) (DasCall.defined h hr hk) nth as s he signals

/-- C75: the analytic functions: `rect_sir` has no race; `circ_sir` and `scirc_sir` have none without
signals, and every call of them for at least one point has one when a signal arrives. -/
theorem C75_analytic {C : AnaCall F} {H : Buf F} (h : C.Sized H) (nth : Nat) :
    (∀ as s, exec C.drv.task as (initSys C.No nth H) = .ok s →
      ¬ C.drv.DataRace C.kind.flag.atomic false s) ∧
    ((∃ a b, C.kind = .rect a b) → ∀ as s, exec C.drv.task as (initSys C.No nth H) = .ok s →
      ¬ C.drv.DataRace C.kind.flag.atomic true s) ∧
    ((¬ ∃ a b, C.kind = .rect a b) → 1 ≤ nth → 1 ≤ C.No →
      ∃ as s, Act.abort ∉ as ∧ exec C.drv.task as (initSys C.No nth H) = .ok s ∧
        C.drv.DataRace C.kind.flag.atomic true s) := by
  have hf := AnaCall.faithful h
  have hd := AnaCall.defined h
  have hc : C.kind.flag.atomic = true ∨ C.kind.flag.atomic = false := by
    cases C.kind.flag.atomic <;> simp
  refine ⟨fun as s he => ?_, ?_, ?_⟩
  · rcases hc with e | e
    · rw [e]; exact Drv.race_free hf hd nth as s he false
    · rw [e]; exact Drv.race_free_plain hf hd (by simp [AnaCall.drv, Drv.ofProg, oobErr]) nth as s he
  · rintro ⟨a, b, hk⟩ as s he
    rw [hk]
    exact Drv.race_free hf hd nth as s he true
  · intro hk h1 hN
    have e : C.kind.flag.atomic = false := by
      cases hC : C.kind with
      | rect a b => exact absurd ⟨a, b, hC⟩ hk
      | circ r => rfl
      | scirc r k => rfl
    rw [e]
    exact Drv.flag_race hf hd nth h1 hN

/-- C75: `conv_p` and `fftconv_p`: no race without signals; with an atomic flag (Python) none at all;
with the `volatile int` of MATLAB, Octave and Julia every call has one when a signal arrives. -/
theorem C75_conv {C : ConvCall F} {Y : Buf F} (h : C.Sized Y) (ha : C.accepted = true) (nth : Nat) :
    (∀ as s, exec C.drv.task as (initSys C.aN nth Y) = .ok s →
      ¬ C.drv.DataRace FlagOf.conv.atomic false s ∧
      ∀ signals, ¬ C.drv.DataRace FlagOf.pyFftconv.atomic signals s) ∧
    (1 ≤ nth → 1 ≤ C.aN → ∃ as s, Act.abort ∉ as ∧
      exec C.drv.task as (initSys C.aN nth Y) = .ok s ∧ C.drv.DataRace FlagOf.conv.atomic true s) := by
  have hf := ConvCall.faithful h ha
  have hd := ConvCall.defined h ha
  exact ⟨fun as s he => ⟨Drv.race_free_plain hf hd (by simp [ConvCall.drv, Drv.ofProg, oobErr]) nth as s he,
    Drv.race_free hf hd nth as s he⟩, Drv.flag_race hf hd nth⟩

/-- C75: `sum_fftconv`. -/
theorem C75_sum {C : SumCall F} {Y : Buf F} (h : C.Sized Y) (ha : C.accepted = true)
    (hu : ¬ (C.uM = 1 ∧ 1 < C.uN)) (nth : Nat) :
    (∀ as s, exec C.drv.task as (initSys C.hN nth Y) = .ok s →
      ¬ C.drv.DataRace FlagOf.sum.atomic false s) ∧
    (1 ≤ nth → 1 ≤ C.hN → ∃ as s, Act.abort ∉ as ∧
      exec C.drv.task as (initSys C.hN nth Y) = .ok s ∧ C.drv.DataRace FlagOf.sum.atomic true s) := by
  have hf := SumCall.faithful h ha hu
  have hd := SumCall.defined h ha hu
  exact ⟨Drv.race_free_plain hf hd (by simp [SumCall.drv, Drv.ofProg, oobErr]) nth,
    Drv.flag_race hf hd nth⟩

/-- C75: `fftconv_ola`, for the calls that are defined (C27). -/
theorem C75_ola {C : OlaCall F} {Y : Buf F} (h : C.Sized Y) (ha : C.accepted = true) (hbl : 1 ≤ C.bl)
    (nth : Nat) (h1 : 1 ≤ nth) (hg : C.Good nth) :
    (∀ as s, exec (C.drv nth).task as (initSys C.aN nth Y) = .ok s →
      ¬ (C.drv nth).DataRace FlagOf.ola.atomic false s) ∧
    (1 ≤ C.aN → ∃ as s, Act.abort ∉ as ∧ exec (C.drv nth).task as (initSys C.aN nth Y) = .ok s ∧
      (C.drv nth).DataRace FlagOf.ola.atomic true s) := by
  have hf := OlaCall.faithful h ha hbl nth h1 hg
  have hd := OlaCall.defined h ha hbl nth h1 hg
  exact ⟨Drv.race_free_plain hf hd (by simp [OlaCall.drv, Drv.ofProg, oobErr]) nth,
    Drv.flag_race hf hd nth h1⟩

/-- C75: `copy_p` and `add_p` on all columns. -/
theorem C75_copy {C : CopyCall F} {A : Buf F} (h : C.Sized A) (ha : C.accepted = true)
    (hk : C.k0 = 1 ∧ C.k1 = C.aN) (nth : Nat) :
    (∀ as s, exec C.drv.task as (initSys C.drv.No nth A) = .ok s →
      ¬ C.drv.DataRace FlagOf.copy.atomic false s) ∧
    (1 ≤ nth → 1 ≤ C.drv.No → ∃ as s, Act.abort ∉ as ∧
      exec C.drv.task as (initSys C.drv.No nth A) = .ok s ∧
        C.drv.DataRace FlagOf.copy.atomic true s) := by
  have hf := CopyCall.faithful h ha hk
  have hd := CopyCall.defined h ha hk
  exact ⟨Drv.race_free_plain hf hd (by simp [CopyCall.drv, Drv.ofProg, oobErr]) nth,
    Drv.flag_race hf hd nth⟩

/-! ### The hypotheses can be met -/

section Examples

attribute [local instance] toyArith

-- C75_own_columns, C75_sir: worker 0 of two on its way through its own column
-- (entries 0 to 11)
example : ∃ as s, exec (toyCall .warn).task as (initSys (toyCall .warn).No 2 toyOut) = .ok s ∧
    (toyCall .warn).drv.nextAccess s (.worker 0) = some (.out 5, true) :=
  ⟨[.step 0, .step 0, .step 1, .step 0, .step 0], _, rfl, rfl⟩

example : (toyCall .warn).Sized toyOut ∧ (toyCall .warn).Defined toyOut := ⟨toySized _, toyDefined _⟩

-- C75_copy: two columns, two workers: a call that is free of races without a signal and has one with
example : ∃ as s, Act.abort ∉ as ∧
    exec (exCopy .copy).drv.task as (initSys (exCopy .copy).drv.No 2 ⟨8, fun _ => 0⟩) = .ok s ∧
    (exCopy .copy).drv.DataRace FlagOf.copy.atomic true s ∧
    ¬ (exCopy .copy).drv.DataRace FlagOf.copy.atomic false s := by
  have h : (exCopy .copy).Sized ⟨8, fun _ => 0⟩ :=
    ⟨rfl, rfl, by decide, by decide, by decide, by decide⟩
  obtain ⟨h1, h2⟩ := C75_copy h rfl ⟨rfl, rfl⟩ 2
  obtain ⟨as, s, g1, g2, g3⟩ := h2 (by omega) (by decide)
  exact ⟨as, s, g1, g2, g3, h1 as s g2⟩

end Examples

section Examples

-- C75_conv, C75_ola and C75_analytic have a race with a signal
example : ∃ as s, exec (exConv (.fft exactLib fun _ => exScratch 4)).drv.task as
      (initSys 2 2 ⟨8, fun _ => 1⟩) = .ok s ∧
    (exConv (.fft exactLib fun _ => exScratch 4)).drv.DataRace FlagOf.conv.atomic true s := by
  have hs : (exConv (.fft exactLib fun _ => exScratch 4)).Sized ⟨8, fun _ => 1⟩ := by
    refine exConv_sized _ ?_
    intro L S e n
    obtain ⟨rfl, rfl⟩ := (ConvKind.fft.injEq _ _ _ _).mp e
    exact ⟨rfl, rfl, rfl, rfl, rfl, rfl⟩
  obtain ⟨as, s, -, g2, g3⟩ := (C75_conv hs rfl 2).2 (by omega) (by simp [exConv])
  exact ⟨as, s, g2, g3⟩

example : ∃ as s, exec ((exOla 2 3 2 (exOla 2 3 2 0 .equ).fftLen .equ).drv 2).task as
      (initSys 3 2 ⟨(exOla 2 3 2 0 .equ).len * 3, fun _ => 1⟩) = .ok s ∧
    ((exOla 2 3 2 (exOla 2 3 2 0 .equ).fftLen .equ).drv 2).DataRace FlagOf.ola.atomic true s := by
  obtain ⟨as, s, -, g2, g3⟩ := (C75_ola (exOla_sized 2 3 2 .equ (by omega) (by omega))
    (by simp [OlaCall.accepted, exOla]) (by simp [exOla]) 2 (by omega) (.inl (by simp [exOla]))).2
    (by simp [exOla])
  exact ⟨as, s, g2, g3⟩

example : ∃ as s, exec (exAna (.circ 10) 5 20).drv.task as
      (initSys 1 2 ⟨20, fun _ => 9⟩) = .ok s ∧
    (exAna (.circ 10) 5 20).drv.DataRace (exAna (.circ 10) 5 20).kind.flag.atomic true s := by
  obtain ⟨as, s, -, g2, g3⟩ := (C75_analytic (exAna_sized (.circ 10) 5 20) 2).2.2
    (by simp [exAna]) (by omega) (by simp [exAna])
  exact ⟨as, s, g2, g3⟩

end Examples

end Dream
