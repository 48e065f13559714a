import Verif.InPlace2
import Verif.ClaimsInPlace
import Verif.ClaimsOlaModes
import Verif.ClaimsWholeConv2

/-
Claim C79 for `fftconv_ola` and `sum_fftconv`.
-/

namespace Dream
open Arith

variable {V : Type}

/-! ### The first access to the output -/

theorem OlaCall.prog_access {F : Type} [Arith F] {C : OlaCall F} {Y : Buf F} (h : C.Sized Y) (ha : C.accepted = true)
    (hbl : 1 ≤ C.bl) (haM : 1 ≤ C.aM) {n : ℕ} (hn : n < C.aN) {start : ℕ}
    (hap : C.bl < C.aM → C.apAt start (n - start) + C.bl ≤ C.A.size) : (C.prog start n).Access := by
  have hb := OlaCall.bRows_pos h
  obtain ⟨y', e, hy, _⟩ := OlaCall.blockY_ok h ha hbl hn (k := 0) (by omega)
    (by simpa using hap) (C.y0 n) (h.y0 n)
  unfold OlaCall.prog
  refine Prog.Access.bind ?_
  obtain ⟨f, hf⟩ : ∃ j, C.aM = j + 1 := ⟨C.aM - 1, by omega⟩
  generalize C.apAt start (n - start) = ap at e
  have : ∀ f, (C.olaLoop n (f + 1) 0 ap (C.y0 n)).Access := by
    intro f
    unfold OlaCall.olaLoop
    rw [if_pos (by omega), e]
    show ((C.addOverlap 0 y').bind _).Access
    refine Prog.Access.bind (Prog.Access.forN ?_ ?_)
    · have : C.len = C.aM + C.bRows - 1 := rfl
      have : C.fftLen = C.bl + C.bRows - 1 := rfl
      split <;> omega
    · rw [Buf.read_nat _ _ (by have : C.fftLen = C.bl + C.bRows - 1 := rfl; omega)]
      trivial
  rw [hf]
  exact this f

theorem SumCall.prog_access {F : Type} [Arith F] {C : SumCall F} {Y : Buf F} (h : C.Sized Y) (ha : C.accepted = true)
    (hu : ¬ (C.uM = 1 ∧ 1 < C.uN)) {n : ℕ} (hn : n < C.hN) : (C.prog n).Access := by
  have hLN : C.hL = C.uN := by simpa [SumCall.accepted] using ha
  have hr := SumCall.uRows_eq hu (by rw [← hLN]; exact h.hL)
  have hM := h.hM
  have huM := h.uM
  obtain ⟨z', e, _⟩ := (SumCall.prog_ok h ha hu hn).2 (fun _ => Arith.lit 0)
  unfold SumCall.prog at e ⊢
  refine Prog.Access.bind ?_
  rw [Prog.runCol_bind] at e
  unfold addFftconv at e ⊢
  dsimp only at e ⊢
  generalize (Outcome.bind _ _ : Outcome (Buf F)) = o at e ⊢
  cases o with
  | ok c =>
    refine Prog.Access.forN (by omega) ?_
    have hc : 0 < c.size := by
      by_contra hc
      obtain ⟨k, hk⟩ : ∃ j, C.hM + C.uRows - 1 = j + 1 := ⟨C.hM + C.uRows - 2, by omega⟩
      have hbad : c.read ((0 : ℕ) : ℤ) = .ub .oob := by unfold Buf.read; rw [if_neg (by omega)]
      unfold storeCol at e
      rw [hk] at e
      simp only [Prog.forN, Prog.lift, Prog.bind, hbad, Prog.runCol] at e
      simp at e
    rw [Buf.read_nat _ _ hc]
    cases addMode C.mode <;> trivial
  | _ => simp [Prog.lift, Prog.bind, Prog.runCol] at e


section Runs
variable {F : Type} [Arith F]

/-! ### fftconv_ola -/

omit [Arith F] in
theorem Host.ola_sized {h : Host V F} {L : FFTLib F} {M : OlaScratch F} {a b y : V} {bl : ℕ} {mode : ConvMode}
    (hc : h.olaChecks L M a b y bl mode) (hb : 1 ≤ (h.val b).rows ∧ 1 ≤ (h.val b).cols)
    (hM : ∀ n k, (M.S n k).Sized (h.olaCall L M a b bl mode).fftLen ∧
      (M.ab n k).size = (h.olaCall L M a b bl mode).fftLen ∧ (M.y0 n).size = (h.olaCall L M a b bl mode).fftLen) :
    (h.olaCall L M a b bl mode).Sized (h.val y).buf where
  a := rfl
  b := rfl
  bM := hb.1
  bN := hb.2
  y := by
    show (h.val y).rows * (h.val y).cols = _
    rw [hc.2.1, hc.2.2.1]
    rfl
  scratch := fun n k => (hM n k).1
  ab := fun n k => (hM n k).2.1
  y0 := fun n => (hM n 0).2.2

/-- What an in-place call of fftconv_ola needs: a non-empty second argument, a block length of at least one, local
memory of the size the code allocates, and that the call is defined (C27, C28). -/
structure OlaInPlaceOk (h : Host V F) (L : FFTLib F) (M : OlaScratch F) (a b : V) (bl : ℕ) (mode : ConvMode)
    (nth : ℕ) : Prop where
  bM : 1 ≤ (h.val b).rows
  bN : 1 ≤ (h.val b).cols
  block : 1 ≤ bl
  scratch : ∀ n k, (M.S n k).Sized (h.olaCall L M a b bl mode).fftLen ∧
    (M.ab n k).size = (h.olaCall L M a b bl mode).fftLen ∧ (M.y0 n).size = (h.olaCall L M a b bl mode).fftLen
  defined : ¬ ((h.val b).rows = 1 ∨ (h.val b).cols = 1) ∨ bl = (h.val a).rows ∨ (h.val a).cols ≤ nth

omit [Arith F] in
/-- A call that replaces the contents of block `p` only. -/
theorem Host.poke_others (h : Host V F) (p : ℕ) (d : ℕ → F) (y u : V) (hy : h.env y = .full p) :
    (h.poke p d).env u = h.env u ∧ ((h.poke p d).val u).rows = (h.val u).rows ∧
    ((h.poke p d).val u).cols = (h.val u).cols ∧ (h.env u ≠ h.env y → (h.poke p d).val u = h.val u) := by
  obtain ⟨g1, g2⟩ := Host.poke_val h p d u
  refine ⟨rfl, ?_, ?_, fun e => g2 (by rwa [hy] at e)⟩
  · by_cases e : h.env u = .full p
    · rw [g1 e]; unfold Host.val; rw [e]
    · rw [g2 e]
  · by_cases e : h.env u = .full p
    · rw [g1 e]; unfold Host.val; rw [e]
    · rw [g2 e]

/-- C79: an in-place call of fftconv_ola changes nothing but the block the fourth argument is stored in, whether or
not it is interrupted. -/
theorem C79_ola_others_unchanged (h h' : Host V F) (L : FFTLib F) (M : OlaScratch F) (a b y : V) (bl : ℕ)
    (mode : ConvMode) (nth : ℕ) (as : List Act) (hr : h.OlaRun L M a b y bl mode nth as h') (u : V) :
    h'.env u = h.env u ∧ (h'.val u).rows = (h.val u).rows ∧ (h'.val u).cols = (h.val u).cols ∧
    (h.env u ≠ h.env y → h'.val u = h.val u) := by
  obtain ⟨_, hr⟩ := hr
  cases hy : h.env y with
  | full p =>
    rw [hy] at hr
    obtain ⟨s', _, rfl⟩ := hr
    rw [← hy]
    exact Host.poke_others h p _ y u hy
  | other m =>
    rw [hy] at hr
    obtain ⟨s', _, rfl⟩ := hr
    exact ⟨rfl, rfl, rfl, fun _ => rfl⟩

/-- C79: an in-place call of fftconv_ola on a full matrix has a complete run. -/
theorem C79_ola_completes (h : Host V F) (L : FFTLib F) (M : OlaScratch F) (a b y : V) (bl : ℕ)
    (mode : ConvMode) (p : ℕ) (hy : h.env y = .full p) (nth : ℕ) (h1 : 1 ≤ nth)
    (ho : OlaInPlaceOk h L M a b bl mode nth) (hc : h.olaChecks L M a b y bl mode) :
    ∃ as h', Act.abort ∉ as ∧ h.OlaRun L M a b y bl mode nth as h' := by
  have hs := Host.ola_sized hc ⟨ho.bM, ho.bN⟩ ho.scratch
  have hv : h.val y = h.mem p := by unfold Host.val; rw [hy]
  rw [hv] at hs
  obtain ⟨as, s', g1, g2⟩ := (C27_terminates hs hc.1 ho.block nth h1 ho.defined).2.2
  refine ⟨as, h.poke p s'.mem.data, g1, hc, ?_⟩
  rw [hy]
  exact ⟨s', g2, rfl⟩

/-- C79: a complete in-place call of fftconv_ola in mode `=` leaves, in `y` and in every variable that shares its
memory, the old values plus the convolution (not the documented convolution alone: see C45). -/
theorem C79_ola_sharers (h h' : Host V ℝ) (M : OlaScratch ℝ) (a b y : V) (bl : ℕ) (p : ℕ) (hy : h.env y = .full p)
    (nth : ℕ) (h1 : 1 ≤ nth) (ho : OlaInPlaceOk h exactLib M a b bl .equ nth) (as : List Act)
    (hab : Act.abort ∉ as) (hr : h.OlaRun exactLib M a b y bl .equ nth as h') (u : V) (hu : h.env u = h.env y)
    (n : ℕ) (hn : n < (h.val y).cols) (i : ℕ) (hi : i < (h.val y).rows) :
    (h'.val u).data (n * (h.val y).rows + i) = inPlaceWant h a b y .sum n i := by
  obtain ⟨hc, hr⟩ := hr
  have hs := Host.ola_sized hc ⟨ho.bM, ho.bN⟩ ho.scratch
  have hv : h.val y = h.mem p := by unfold Host.val; rw [hy]
  have hrow := hc.2.1
  rw [hy] at hr
  obtain ⟨s', hrun, rfl⟩ := hr
  rw [((Host.poke_val h p s'.mem.data u).1 (by rw [hu, hy]))]
  rw [hv] at hs
  have key := C27_ola_exact (h.olaCall exactLib M a b bl .equ) (h.mem p).buf hs hc.1 ho.block rfl rfl nth h1 ho.defined
    as hab s' hrun n (by rw [hc.2.2.1] at hn; exact hn) i (by rw [← hrow]; exact hi)
  rw [← hrow] at key
  refine key.trans ?_
  unfold inPlaceWant
  simp only [stored]
  rw [hv]
  rfl

/-- C79, Octave: fftconv_ola with a fourth argument that is not a full matrix of doubles writes to memory that has
been freed: no complete run, and a schedule that gets there. -/
theorem C79_ola_not_full_matrix (h : Host V F) (L : FFTLib F) (M : OlaScratch F) (a b y : V) (bl : ℕ)
    (mode : ConvMode) (m : HMat F) (hy : h.env y = .other m) (haM : 1 ≤ (h.val a).rows) (haN : 1 ≤ (h.val a).cols)
    (nth : ℕ) (h1 : 1 ≤ nth) (ho : OlaInPlaceOk h L M a b bl mode nth) (hc : h.olaChecks L M a b y bl mode) :
    (∀ as h', ¬ h.OlaRun L M a b y bl mode nth as h') ∧
    ∃ as, exec ((h.olaCall L M a b bl mode).drv nth).task as
      (initSys (h.olaCall L M a b bl mode).aN nth ⟨0, m.data⟩) = .ub .oob := by
  have hs := Host.ola_sized hc ⟨ho.bM, ho.bN⟩ ho.scratch
  have key := Drv.ofProg_freed (len := (h.olaCall L M a b bl mode).len)
    (base := fun n => n * (h.olaCall L M a b bl mode).len) (level := .none)
    (prog := fun n => (h.olaCall L M a b bl mode).prog (OlaCall.startOf (h.olaCall L M a b bl mode).aN nth n) n)
    m.data (No := (h.olaCall L M a b bl mode).aN) haN
    (fun n hn => OlaCall.prog_access hs hc.1 ho.block haM hn fun hb => by
      simpa using OlaCall.good_ap hs ho.block nth h1 ho.defined hn 0 (by simpa using hb)) nth h1
  refine ⟨?_, key.2⟩
  rintro as h' ⟨_, hr⟩
  rw [hy] at hr
  obtain ⟨s', g, _⟩ := hr
  exact key.1 as s' g

/-! ### sum_fftconv -/

/-- What an in-place call of sum_fftconv needs: non-empty inputs, input signals in columns, and local memory of the
size the code allocates. -/
structure SumInPlaceOk (h : Host V F) (L : FFTLib F) (M : SumScratch F) (H u : V) (n l : ℕ) (mode : ConvMode) :
    Prop where
  hM : 1 ≤ (h.val H).rows
  hL : 1 ≤ l
  uM : 1 ≤ (h.val u).rows
  col : ¬ ((h.val u).rows = 1 ∧ 1 < (h.val u).cols)
  scratch : ∀ n' l', (M.S n' l').Sized (h.sumCall L M H u n l mode).len ∧
    (M.cf n').size = (h.sumCall L M H u n l mode).len ∧ (M.c n').size = (h.sumCall L M H u n l mode).len

omit [Arith F] in
theorem Host.sum_sized {h : Host V F} {L : FFTLib F} {M : SumScratch F} {H u y : V} {n l : ℕ} {mode : ConvMode}
    (hc : h.sumChecks L M H u y n l mode) (ho : SumInPlaceOk h L M H u n l mode) :
    (h.sumCall L M H u n l mode).Sized (h.val y).buf where
  h := rfl
  u := rfl
  hM := ho.hM
  hL := ho.hL
  uM := ho.uM
  y := by
    show (h.val y).rows * (h.val y).cols = _
    rw [hc.2.2.1, hc.2.2.2.1]
    rfl
  scratch := fun n l => (ho.scratch n l).1
  cf := fun n => (ho.scratch n 0).2.1
  c := fun n => (ho.scratch n 0).2.2

/-- C79: an in-place call of sum_fftconv changes nothing but the block the third argument is stored in. -/
theorem C79_sum_others_unchanged (h h' : Host V F) (L : FFTLib F) (M : SumScratch F) (H u y : V) (n l : ℕ)
    (mode : ConvMode) (nth : ℕ) (as : List Act) (hr : h.SumRun L M H u y n l mode nth as h') (v : V) :
    h'.env v = h.env v ∧ (h'.val v).rows = (h.val v).rows ∧ (h'.val v).cols = (h.val v).cols ∧
    (h.env v ≠ h.env y → h'.val v = h.val v) := by
  obtain ⟨_, hr⟩ := hr
  cases hy : h.env y with
  | full p =>
    rw [hy] at hr
    obtain ⟨s', _, rfl⟩ := hr
    rw [← hy]
    exact Host.poke_others h p _ y v hy
  | other m =>
    rw [hy] at hr
    obtain ⟨s', _, rfl⟩ := hr
    exact ⟨rfl, rfl, rfl, fun _ => rfl⟩

/-- C79: an in-place call of sum_fftconv on a full matrix has a complete run. -/
theorem C79_sum_completes (h : Host V F) (L : FFTLib F) (M : SumScratch F) (H u y : V) (n l : ℕ)
    (mode : ConvMode) (p : ℕ) (hy : h.env y = .full p) (ho : SumInPlaceOk h L M H u n l mode)
    (hc : h.sumChecks L M H u y n l mode) (nth : ℕ) :
    ∃ as h', Act.abort ∉ as ∧ h.SumRun L M H u y n l mode nth as h' := by
  have hs := Host.sum_sized hc ho
  have hv : h.val y = h.mem p := by unfold Host.val; rw [hy]
  rw [hv] at hs
  obtain ⟨k, s', g1, g2⟩ := Drv.run_exists (SumCall.faithful hs hc.1 ho.col) (SumCall.defined hs hc.1 ho.col) nth
  refine ⟨_, h.poke p s'.mem.data, g1, hc, ?_⟩
  rw [hy]
  exact ⟨s', g2, rfl⟩

/-- C79: what a complete in-place call of sum_fftconv leaves in `y` and in every variable that shares its memory:
the sum of the convolutions divided by the FFT length (C26), added to the old values in Octave (mode `+=`) and
replacing them in MATLAB (mode `=`). -/
theorem C79_sum_sharers (h h' : Host V ℝ) (M : SumScratch ℝ) (H u y : V) (n l : ℕ) (mode : ConvMode) (p : ℕ)
    (hy : h.env y = .full p) (ho : SumInPlaceOk h exactLib M H u n l mode) (nth : ℕ) (h1 : 1 ≤ nth) (as : List Act)
    (hab : Act.abort ∉ as) (hr : h.SumRun exactLib M H u y n l mode nth as h') (v : V) (hv : h.env v = h.env y)
    (j : ℕ) (hj : j < n) (i : ℕ) (hi : i < (h.val y).rows) :
    (h.val y).rows = (h.val H).rows + (h.val u).rows - 1 ∧
    (h'.val v).data (j * (h.val y).rows + i) =
      (if mode = .sum then (h.val y).data (j * (h.val y).rows + i) else 0) +
      convSum (fun k i => (h.val H).data (k * ((h.val H).rows * n) + (j * (h.val H).rows + i)))
        (fun k i => (h.val u).data (k * (h.val u).rows + i)) l (h.val H).rows (h.val u).rows i /
        ((h.val y).rows : ℝ) := by
  obtain ⟨hc, hr⟩ := hr
  have hs := Host.sum_sized hc ho
  have hvy : h.val y = h.mem p := by unfold Host.val; rw [hy]
  have hrow := hc.2.2.1
  have hLN : (h.sumCall exactLib M H u n l mode).hL = (h.sumCall exactLib M H u n l mode).uN := by
    simpa [SumCall.accepted] using hc.1
  have hr1 := SumCall.uRows_eq (C := h.sumCall exactLib M H u n l mode) ho.col (by rw [← hLN]; exact ho.hL)
  have hlen : (h.sumCall exactLib M H u n l mode).len = (h.val H).rows + (h.val u).rows - 1 := by
    unfold SumCall.len; rw [hr1]; rfl
  rw [hlen] at hrow
  rw [hy] at hr
  obtain ⟨s', hrun, rfl⟩ := hr
  rw [((Host.poke_val h p s'.mem.data v).1 (by rw [hv, hy]))]
  rw [hvy] at hs
  refine ⟨hrow, ?_⟩
  have key := C26_sum_fftconv_exact (h.sumCall exactLib M H u n l mode) (h.mem p).buf hs hc.1 ho.col rfl nth h1
    as hab s' hrun j hj i (by rw [hrow] at hi; exact hi)
  have hw : (h.sumCall exactLib M H u n l mode).hM + (h.sumCall exactLib M H u n l mode).uM - 1 =
      (h.val H).rows + (h.val u).rows - 1 := rfl
  rw [hw, ← hrow] at key
  refine key.trans ?_
  have e1 : (h.sumCall exactLib M H u n l mode).colH j =
      fun k i => (h.val H).data (k * ((h.val H).rows * n) + (j * (h.val H).rows + i)) := by
    funext k i
    show (h.val H).data (i + j * (h.val H).rows + (h.val H).rows * n * k) = _
    congr 1; ring
  have e2 : (h.sumCall exactLib M H u n l mode).colU = fun k i => (h.val u).data (k * (h.val u).rows + i) := by
    funext k i
    show (h.val u).data (i + k * (h.val u).rows) = _
    congr 1; ring
  rw [← e1, ← e2, hvy]
  rfl

/-- C79, Octave: sum_fftconv with a third argument that is not a full matrix of doubles writes to memory that has
been freed. -/
theorem C79_sum_not_full_matrix (h : Host V F) (L : FFTLib F) (M : SumScratch F) (H u y : V) (n l : ℕ)
    (mode : ConvMode) (m : HMat F) (hy : h.env y = .other m) (hn : 1 ≤ n) (ho : SumInPlaceOk h L M H u n l mode)
    (hc : h.sumChecks L M H u y n l mode) (nth : ℕ) (h1 : 1 ≤ nth) :
    (∀ as h', ¬ h.SumRun L M H u y n l mode nth as h') ∧
    ∃ as, exec (h.sumCall L M H u n l mode).drv.task as
      (initSys (h.sumCall L M H u n l mode).hN nth ⟨0, m.data⟩) = .ub .oob := by
  have hs := Host.sum_sized hc ho
  have key := Drv.ofProg_freed (len := (h.sumCall L M H u n l mode).len)
    (base := fun k => k * (h.sumCall L M H u n l mode).len) (level := .none)
    (prog := (h.sumCall L M H u n l mode).prog) m.data (No := (h.sumCall L M H u n l mode).hN) hn
    (fun k hk => SumCall.prog_access hs hc.1 ho.col hk) nth h1
  refine ⟨?_, key.2⟩
  rintro as h' ⟨_, hr⟩
  rw [hy] at hr
  obtain ⟨s', g, _⟩ := hr
  exact key.1 as s' g

end Runs

/-! ### The hypotheses can be met -/

section Examples

/-- Four samples in one column (also read as a response of two samples, one point, two inputs), `b` = [5; 6] or, for
sum_fftconv, two signals. -/
noncomputable def exHost2 (bN : ℕ) (y : HVal ℝ) (rows : ℕ) (cols : ℕ) : Host ExVar ℝ where
  env := fun
    | .a => .full 0
    | .b => .full 1
    | .y => y
    | .z => y
  mem := fun
    | 0 => if bN = 1 then ⟨4, 1, fun i => i + 1⟩ else ⟨2, 2, fun i => i + 1⟩
    | 1 => ⟨2, bN, fun i => i + 5⟩
    | _ => ⟨rows, cols, fun _ => 10⟩

theorem exHost2_ola (y : HVal ℝ) (mode : ConvMode) :
    OlaInPlaceOk (exHost2 1 y 5 1) exactLib (exOlaScratch 3) .a .b 2 mode 2 where
  bM := by simp [exHost2, Host.val]
  bN := by simp [exHost2, Host.val]
  block := by omega
  scratch := fun _ _ => ⟨⟨rfl, rfl, rfl, rfl, rfl, rfl⟩, rfl, rfl⟩
  defined := .inr (.inr (by simp [exHost2, Host.val]))

/-- fftconv_ola([1 2 3 4]', [5 6]', 2, y): two blocks, two workers; 10 + 6*2 + 5*3 in sample 2 of `y` and `z`. -/
example : ∃ as h', Act.abort ∉ as ∧
    (exHost2 1 (.full 2) 5 1).OlaRun exactLib (exOlaScratch 3) .a .b .y 2 .equ 2 as h' ∧
    (h'.val .y).data 2 = 37 ∧ (h'.val .z).data 2 = 37 ∧ (h'.val .a).data 2 = 3 := by
  have hc : (exHost2 1 (.full 2) 5 1).olaChecks exactLib (exOlaScratch 3) .a .b .y 2 .equ :=
    ⟨rfl, rfl, rfl, rfl, rfl⟩
  have ho := exHost2_ola (.full 2) .equ
  obtain ⟨as, h', g1, g2⟩ := C79_ola_completes _ exactLib _ ExVar.a ExVar.b ExVar.y 2 .equ 2 rfl 2 (by omega) ho hc
  have key := fun u hu => C79_ola_sharers _ h' _ ExVar.a ExVar.b ExVar.y 2 2 rfl 2 (by omega) ho as g1 g2 u hu 0
    (by simp [exHost2, Host.val]) 2 (by simp [exHost2, Host.val])
  have hw : inPlaceWant (exHost2 1 (.full 2) 5 1) .a .b .y .sum 0 2 = 37 := by
    norm_num [inPlaceWant, exHost2, Host.val, stored, linConv, Finset.sum_range_succ]
  rw [hw, Nat.zero_mul, Nat.zero_add] at key
  refine ⟨as, h', g1, g2, key .y rfl, key .z rfl, ?_⟩
  rw [(C79_ola_others_unchanged _ h' _ _ ExVar.a ExVar.b ExVar.y 2 .equ 2 as g2 .a).2.2.2 (by simp [exHost2])]
  norm_num [exHost2, Host.val]

/-- A single precision `y` of the right size. -/
example : (∀ as h', ¬ (exHost2 1 (.other ⟨5, 1, fun _ => 7⟩) 5 1).OlaRun exactLib (exOlaScratch 3) .a .b .y 2 .equ 2
    as h') ∧ (exHost2 1 (.other ⟨5, 1, fun _ => 7⟩) 5 1).olaChecks exactLib (exOlaScratch 3) .a .b .y 2 .equ :=
  have hc : (exHost2 1 (.other ⟨5, 1, fun _ => 7⟩) 5 1).olaChecks exactLib (exOlaScratch 3) .a .b .y 2 .equ :=
    ⟨rfl, rfl, rfl, rfl, rfl⟩
  ⟨(C79_ola_not_full_matrix _ exactLib _ ExVar.a ExVar.b ExVar.y 2 .equ _ rfl (by simp [exHost2, Host.val])
    (by simp [exHost2, Host.val]) 2 (by omega) (exHost2_ola _ .equ) hc).1, hc⟩

theorem exHost2_sum (y : HVal ℝ) (mode : ConvMode) :
    SumInPlaceOk (exHost2 2 y 3 1) exactLib (exSumScratch 3) .a .b 1 2 mode where
  hM := by simp [exHost2, Host.val]
  hL := by omega
  uM := by simp [exHost2, Host.val]
  col := by simp [exHost2, Host.val]
  scratch := fun _ _ => ⟨⟨rfl, rfl, rfl, rfl, rfl, rfl⟩, rfl, rfl⟩

/-- sum_fftconv in place, Octave: (1*5 + 3*7)/3 is added to the first sample of `y` and of `z`. -/
example : ∃ as h', Act.abort ∉ as ∧
    (exHost2 2 (.full 2) 3 1).SumRun exactLib (exSumScratch 3) .a .b .y 1 2 .sum 2 as h' ∧
    (h'.val .y).data 0 = 10 + 26 / 3 ∧ (h'.val .z).data 0 = 10 + 26 / 3 ∧ (h'.val .b).data 0 = 5 := by
  have hc : (exHost2 2 (.full 2) 3 1).sumChecks exactLib (exSumScratch 3) .a .b .y 1 2 .sum :=
    ⟨rfl, rfl, rfl, rfl, rfl, rfl⟩
  have ho := exHost2_sum (.full 2) .sum
  obtain ⟨as, h', g1, g2⟩ := C79_sum_completes _ exactLib _ ExVar.a ExVar.b ExVar.y 1 2 .sum 2 rfl ho hc 2
  have key := fun v hv => (C79_sum_sharers _ h' _ ExVar.a ExVar.b ExVar.y 1 2 .sum 2 rfl ho 2 (by omega) as g1 g2 v hv 0
    (by omega) 0 (by simp [exHost2, Host.val])).2
  have e : ∀ v, (exHost2 2 (.full 2) 3 1).env v = .full 2 → (h'.val v).data 0 = 10 + 26 / 3 := by
    intro v hv
    have := key v hv
    rw [Nat.zero_mul, Nat.zero_add] at this
    rw [this]
    norm_num [exHost2, Host.val, convSum, linConv, Finset.sum_range_succ]
  refine ⟨as, h', g1, g2, e .y rfl, e .z rfl, ?_⟩
  rw [(C79_sum_others_unchanged _ h' _ _ ExVar.a ExVar.b ExVar.y 1 2 .sum 2 as g2 .b).2.2.2 (by simp [exHost2])]
  norm_num [exHost2, Host.val]

/-- An integer `y`. -/
example : (∀ as h', ¬ (exHost2 2 (.other ⟨3, 1, fun _ => 7⟩) 3 1).SumRun exactLib (exSumScratch 3) .a .b .y 1 2 .sum 2
    as h') ∧ (exHost2 2 (.other ⟨3, 1, fun _ => 7⟩) 3 1).sumChecks exactLib (exSumScratch 3) .a .b .y 1 2 .sum :=
  have hc : (exHost2 2 (.other ⟨3, 1, fun _ => 7⟩) 3 1).sumChecks exactLib (exSumScratch 3) .a .b .y 1 2 .sum :=
    ⟨rfl, rfl, rfl, rfl, rfl, rfl⟩
  ⟨(C79_sum_not_full_matrix _ exactLib _ ExVar.a ExVar.b ExVar.y 1 2 .sum _ rfl (by omega) (exHost2_sum _ .sum) hc 2 (by omega)).1, hc⟩

end Examples
end Dream
