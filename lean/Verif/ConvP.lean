import Verif.FftConv
import Verif.Driver

/-
The column-parallel drivers conv_p, fftconv_p and sum_fftconv: extra_src/mex_conv_p.cc,
extra_src/fftconv_p.cc, extra_src/mex_sum_fftconv.cc.
-/

namespace Dream
open Arith

variable {F : Type} [Arith F]

/-- Which convolution the workers call, and for the FFT version the contents of the worker's
scratch memory when it starts column `n`. -/
inductive ConvKind (F : Type) where
  | time
  | fft (L : FFTLib F) (S : Nat → Scratch F)

/-- Arguments of conv_p / fftconv_p as the user gives them: `A` is `aM x aN`, `B` is `bM x bN`,
both stored by columns (extra_src/mex_conv_p.cc 206-212, extra_src/mex_fftconv_p.cc 238-244). -/
structure ConvCall (F : Type) where
  aM : Nat
  aN : Nat
  A : Buf F
  bM : Nat
  bN : Nat
  B : Buf F
  mode : ConvMode
  kind : ConvKind F

namespace ConvCall

/-- The size check on argument 2, extra_src/mex_conv_p.cc 215, extra_src/mex_fftconv_p.cc 247. -/
def accepted (C : ConvCall F) : Bool :=
  !(C.bM != 1 && C.bN != 1 && C.bN != C.aN)

/-- `B_M` after "B is a vector", extra_src/mex_conv_p.cc 218-221, extra_src/fftconv_p.cc 186-189. -/
def bRows (C : ConvCall F) : Nat := if C.bM = 1 ∨ C.bN = 1 then C.bM * C.bN else C.bM

/-- `B_N` after "B is a vector". -/
def bCols (C : ConvCall F) : Nat := if C.bM = 1 ∨ C.bN = 1 then 1 else C.bN

/-- Rows of the output, `A_M+B_M-1`, extra_src/mex_conv_p.cc 255. -/
def len (C : ConvCall F) : Nat := C.aM + C.bRows - 1

/-- The read `A[i + n*A_M]`, extra_src/mex_conv_p.cc 95, extra_src/fftconv_p.cc 106-116: the
pointer that is advanced by `A_M` per column is `&A[n*A_M]`. -/
def rdA (C : ConvCall F) (n i : Nat) : Outcome F := C.A.read ((i + n * C.aM : Nat) : Int)

/-- The read `B[i + n*B_M]` if B is a matrix and `B[i]` otherwise, extra_src/mex_conv_p.cc 94-97,
extra_src/fftconv_p.cc 103-140. -/
def rdB (C : ConvCall F) (n i : Nat) : Outcome F :=
  if 1 < C.bCols then C.B.read ((i + n * C.bRows : Nat) : Int) else C.B.read (i : Int)

/-- Work for column `n`, extra_src/mex_conv_p.cc 92-103, extra_src/fftconv_p.cc 103-141.  Neither
function has an error code. -/
def prog (C : ConvCall F) (n : Nat) : Prog F SIRError :=
  (match C.kind with
   | .time => conv (C.rdA n) (C.rdB n) C.aM C.bRows C.mode
   | .fft L S => fftconv L (C.rdA n) (C.rdB n) C.aM C.bRows C.mode (S n)).bind fun _ => .ret .none

/-- The threaded driver, extra_src/mex_conv_p.cc 295-335, extra_src/fftconv_p.cc 341-386: columns of
A are split over the threads; `running` is checked after each column. -/
def drv (C : ConvCall F) : Drv F (Prog F SIRError) :=
  Drv.ofProg C.aN C.len (fun n => n * C.len) .none C.prog

/-- Shapes of the buffers: `A` and `B` have (at least) the sizes given, no dimension of `A` or `B` is empty,
the output is `len x aN` (extra_src/mex_conv_p.cc 255-266), and scratch memory has the FFT
length. -/
structure Sized (C : ConvCall F) (Y : Buf F) : Prop where
  a : C.aM * C.aN ≤ C.A.size
  b : C.bM * C.bN ≤ C.B.size
  aM : 1 ≤ C.aM
  bM : 1 ≤ C.bM
  bN : 1 ≤ C.bN
  y : Y.size = C.len * C.aN
  scratch : ∀ L S, C.kind = .fft L S → ∀ n, (S n).Sized C.len

/-- Column `n` of `A`. -/
def colA (C : ConvCall F) (n i : Nat) : F := C.A.data (i + n * C.aM)

/-- The column of `B` that column `n` of `A` is convolved with: all of `B` if it is a vector. -/
def colB (C : ConvCall F) (n i : Nat) : F :=
  C.B.data (if C.bM = 1 ∨ C.bN = 1 then i else i + n * C.bM)

theorem bRows_pos {C : ConvCall F} {Y : Buf F} (h : C.Sized Y) : 1 ≤ C.bRows := by
  unfold bRows
  split
  · exact Nat.mul_pos h.bM h.bN
  · exact h.bM

theorem rdA_of {C : ConvCall F} (h : C.aM * C.aN ≤ C.A.size) {n : Nat} (hn : n < C.aN) (i : Nat)
    (hi : i < C.aM) : C.rdA n i = .ok (C.colA n i) := by
  have h1 : (n + 1) * C.aM ≤ C.aN * C.aM := Nat.mul_le_mul_right _ hn
  rw [Nat.add_mul, Nat.one_mul, Nat.mul_comm C.aN] at h1
  unfold rdA
  rw [Buf.read_nat _ _ (by omega)]
  rfl

theorem rdA_ok {C : ConvCall F} {Y : Buf F} (h : C.Sized Y) {n : Nat} (hn : n < C.aN) (i : Nat)
    (hi : i < C.aM) : C.rdA n i = .ok (C.colA n i) := rdA_of h.a hn i hi

theorem rdB_of {C : ConvCall F} (h : C.bM * C.bN ≤ C.B.size) (ha : C.accepted = true) {n : Nat}
    (hn : n < C.aN) (i : Nat) (hi : i < C.bRows) : C.rdB n i = .ok (C.colB n i) := by
  unfold rdB colB
  by_cases hv : C.bM = 1 ∨ C.bN = 1
  · have : ¬ 1 < C.bCols := by unfold bCols; rw [if_pos hv]; omega
    rw [if_neg this, if_pos hv]
    unfold bRows at hi
    rw [if_pos hv] at hi
    rw [Buf.read_nat _ _ (Nat.lt_of_lt_of_le hi h)]
  · have h2 : ¬ C.bM = 1 ∧ ¬ C.bN = 1 := ⟨fun e => hv (.inl e), fun e => hv (.inr e)⟩
    have hbN : C.bN = C.aN := by
      refine Decidable.byContradiction fun h3 => ?_
      simp [accepted, h2.1, h2.2, h3] at ha
    have : 1 < C.bCols := by unfold bCols; rw [if_neg hv]; omega
    rw [if_pos this, if_neg hv]
    unfold bRows at hi ⊢
    rw [if_neg hv] at hi ⊢
    have h1 : (n + 1) * C.bM ≤ C.aN * C.bM := Nat.mul_le_mul_right _ hn
    rw [Nat.add_mul, Nat.one_mul, Nat.mul_comm C.aN] at h1
    rw [hbN] at h
    rw [Buf.read_nat _ _ (by omega)]

theorem rdB_ok {C : ConvCall F} {Y : Buf F} (h : C.Sized Y) (ha : C.accepted = true) {n : Nat}
    (hn : n < C.aN) (i : Nat) (hi : i < C.bRows) : C.rdB n i = .ok (C.colB n i) :=
  rdB_of h.b ha hn i hi

/-- Sample `i` of the column that `conv_p` / `fftconv_p` leave when it contained `z`. -/
def colVal (C : ConvCall F) (n : Nat) (z : Nat → F) (i : Nat) : F :=
  match C.kind with
  | .time => convCol C.mode (C.colA n) (C.colB n) C.aM C.bRows z i
  | .fft L _ => storeVal C.mode (z i) (fftconvVal L (C.colA n) (C.colB n) C.aM C.bRows i)

theorem prog_run {C : ConvCall F} {Y : Buf F} (h : C.Sized Y) (ha : C.accepted = true) {n : Nat}
    (hn : n < C.aN) (z : Nat → F) :
    ∃ z', (C.prog n).runCol C.len z = .ok (z', .none) ∧
      ∀ i, i < C.len → z' i = C.colVal n z i := by
  unfold prog colVal
  rw [Prog.runCol_bind]
  cases hk : C.kind with
  | time =>
    obtain ⟨z', e1, e2⟩ := conv_run (C.colA n) (C.colB n) (C.rdA n) (C.rdB n) C.aM C.bRows C.mode
      (rdA_ok h hn) (rdB_ok h ha hn) z
    refine ⟨z', ?_, e2⟩
    simp only
    unfold len
    rw [e1]
    rfl
  | fft L S =>
    obtain ⟨z', e1, e2⟩ := fftconv_run L (C.colA n) (C.colB n) (C.rdA n) (C.rdB n) C.aM C.bRows
      h.aM (bRows_pos h) C.mode (S n) (h.scratch L S hk n) (rdA_ok h hn) (rdB_ok h ha hn) z
    refine ⟨z', ?_, e2⟩
    simp only
    unfold len
    rw [e1]
    rfl

theorem prog_safe {C : ConvCall F} {Y : Buf F} (h : C.Sized Y) (ha : C.accepted = true) {n : Nat}
    (hn : n < C.aN) : (C.prog n).Safe C.len (fun e => e = .none) := by
  unfold prog
  refine Prog.Safe.bind (Q := fun _ => True) ?_ (fun _ _ => rfl)
  cases hk : C.kind with
  | time =>
    exact conv_safe (C.colA n) (C.colB n) (C.rdA n) (C.rdB n) C.aM C.bRows C.mode
      (rdA_ok h hn) (rdB_ok h ha hn)
  | fft L S =>
    exact fftconv_safe L (C.colA n) (C.colB n) (C.rdA n) (C.rdB n) C.aM C.bRows
      h.aM (bRows_pos h) C.mode (S n) (h.scratch L S hk n) (rdA_ok h hn) (rdB_ok h ha hn)

theorem inside {C : ConvCall F} {Y : Buf F} (h : C.Sized Y) (n : Nat) (hn : n < C.aN) :
    n * C.len + C.len ≤ Y.size := by
  have h1 : (n + 1) * C.len ≤ C.aN * C.len := Nat.mul_le_mul_right _ hn
  rw [Nat.add_mul, Nat.one_mul, Nat.mul_comm C.aN] at h1
  rw [h.y]
  exact h1

theorem progOk {C : ConvCall F} {Y : Buf F} (h : C.Sized Y) (ha : C.accepted = true) :
    ProgOk C.aN C.len (fun n => n * C.len) .none C.prog Y where
  inside := inside h
  disj := fun i j _ _ hij => SirCall.cols_disj C.len i j hij
  safe := fun n hn => by
    obtain ⟨z', e, _⟩ := prog_run h ha hn (Y.getCol (n * C.len) C.len)
    rw [e]
    simp
  code := fun n hn r hr => by
    obtain ⟨z', e, _⟩ := prog_run h ha hn (Y.getCol (n * C.len) C.len)
    rw [e] at hr
    simp only [Outcome.ok.injEq] at hr
    subst hr
    exact .inl rfl

theorem faithful {C : ConvCall F} {Y : Buf F} (h : C.Sized Y) (ha : C.accepted = true) :
    C.drv.Faithful Y := Drv.ofProg_faithful (progOk h ha)

theorem defined {C : ConvCall F} {Y : Buf F} (h : C.Sized Y) (ha : C.accepted = true) :
    C.drv.Defined Y :=
  Drv.ofProg_defined (progOk h ha) fun n hn =>
    let ⟨z', e, _⟩ := prog_run h ha hn (Y.getCol (n * C.len) C.len)
    ⟨(z', .none), e⟩

end ConvCall

/-! ### sum_fftconv -/

/-- Arguments of sum_fftconv: `H` is `hM x hN x hL`, `U` is `uM x uN`
(extra_src/mex_sum_fftconv.cc 209-226). -/
structure SumCall (F : Type) where
  hM : Nat
  hN : Nat
  hL : Nat
  H : Buf F
  uM : Nat
  uN : Nat
  U : Buf F
  mode : ConvMode
  L : FFTLib F
  /-- scratch contents for column `n` and input `l` -/
  S : Nat → Nat → Scratch F
  /-- the spectrum accumulator and the result vector when column `n` starts -/
  cf : Nat → Buf (F × F)
  c : Nat → Buf F

namespace SumCall

/-- The size check, extra_src/mex_sum_fftconv.cc 228-230. -/
def accepted (C : SumCall F) : Bool := C.hL == C.uN

/-- `U_M` after "U is a vector", extra_src/mex_sum_fftconv.cc 232-235. -/
def uRows (C : SumCall F) : Nat := if C.uM = 1 ∨ C.uN = 1 then C.uM * C.uN else C.uM

/-- `fft_len`, extra_src/mex_sum_fftconv.cc 237. -/
def len (C : SumCall F) : Nat := C.hM + C.uRows - 1

/-- The read `(H[l])[i + n*h_len]`, extra_src/mex_sum_fftconv.cc 215-219 and
extra_src/fftconv.cc 147. -/
def rdH (C : SumCall F) (n l i : Nat) : Outcome F :=
  C.H.read ((i + n * C.hM + C.hM * C.hN * l : Nat) : Int)

/-- The read `U[i + l*u_len]`, extra_src/fftconv.cc 153. -/
def rdU (C : SumCall F) (l i : Nat) : Outcome F := C.U.read ((i + l * C.uRows : Nat) : Int)

/-- Work for observation point `n`, extra_src/mex_sum_fftconv.cc 110-125. -/
def prog (C : SumCall F) (n : Nat) : Prog F SIRError :=
  (addFftconv C.L (C.rdH n) C.rdU C.hL C.hM C.uRows C.mode (C.S n) (C.cf n) (C.c n)).bind
    fun _ => .ret .none

/-- The threaded driver, extra_src/mex_sum_fftconv.cc 300-440: columns are split over the
threads. -/
def drv (C : SumCall F) : Drv F (Prog F SIRError) :=
  Drv.ofProg C.hN C.len (fun n => n * C.len) .none C.prog

/-- Shapes of the buffers. -/
structure Sized (C : SumCall F) (Y : Buf F) : Prop where
  h : C.H.size = C.hM * C.hN * C.hL
  u : C.U.size = C.uM * C.uN
  hM : 1 ≤ C.hM
  hL : 1 ≤ C.hL
  uM : 1 ≤ C.uM
  y : Y.size = C.len * C.hN
  scratch : ∀ n l, (C.S n l).Sized C.len
  cf : ∀ n, (C.cf n).size = C.len
  c : ∀ n, (C.c n).size = C.len

/-- Response of observation point `n` to input `l`. -/
def colH (C : SumCall F) (n l i : Nat) : F := C.H.data (i + n * C.hM + C.hM * C.hN * l)

/-- Input signal `l`. -/
def colU (C : SumCall F) (l i : Nat) : F := C.U.data (i + l * C.uM)

theorem rdH_ok {C : SumCall F} {Y : Buf F} (h : C.Sized Y) {n : Nat} (hn : n < C.hN) {l : Nat}
    (hl : l < C.hL) (i : Nat) (hi : i < C.hM) : C.rdH n l i = .ok (C.colH n l i) := by
  have h1 : (n + 1) * C.hM ≤ C.hN * C.hM := Nat.mul_le_mul_right _ hn
  have h2 : C.hM * C.hN * (l + 1) ≤ C.hM * C.hN * C.hL := Nat.mul_le_mul_left _ hl
  rw [Nat.add_mul, Nat.one_mul, Nat.mul_comm C.hN] at h1
  rw [Nat.mul_add, Nat.mul_one] at h2
  unfold rdH
  rw [Buf.read_nat _ _ (by rw [h.h]; omega)]
  rfl

/-- `U` is not a row vector with more than one entry. -/
theorem uRows_eq {C : SumCall F} (hu : ¬ (C.uM = 1 ∧ 1 < C.uN)) (hN : 1 ≤ C.uN) :
    C.uRows = C.uM := by
  unfold uRows
  split
  · rcases ‹C.uM = 1 ∨ C.uN = 1› with e | e
    · have : C.uN = 1 := by omega
      rw [this, Nat.mul_one]
    · rw [e, Nat.mul_one]
  · rfl

theorem rdU_ok {C : SumCall F} {Y : Buf F} (h : C.Sized Y) (ha : C.accepted = true)
    (hu : ¬ (C.uM = 1 ∧ 1 < C.uN)) {l : Nat} (hl : l < C.hL) (i : Nat) (hi : i < C.uRows) :
    C.rdU l i = .ok (C.colU l i) := by
  have hLN : C.hL = C.uN := by simpa [accepted] using ha
  have hr := uRows_eq hu (by rw [← hLN]; exact h.hL)
  have h1 : (l + 1) * C.uM ≤ C.hL * C.uM := Nat.mul_le_mul_right _ hl
  rw [Nat.add_mul, Nat.one_mul, Nat.mul_comm C.hL, hLN] at h1
  unfold rdU
  rw [hr] at hi ⊢
  rw [Buf.read_nat _ _ (by rw [h.u]; omega)]
  rfl

theorem prog_ok {C : SumCall F} {Y : Buf F} (h : C.Sized Y) (ha : C.accepted = true)
    (hu : ¬ (C.uM = 1 ∧ 1 < C.uN)) {n : Nat} (hn : n < C.hN) :
    (C.prog n).Safe C.len (fun e => e = .none) ∧
    ∀ z, ∃ z', (C.prog n).runCol C.len z = .ok (z', .none) ∧ ∀ i, i < C.len →
      z' i = storeVal (addMode C.mode) (z i)
        (addFftVal C.L (C.colH n) C.colU C.hL C.hM C.uM i) := by
  have hLN : C.hL = C.uN := by simpa [accepted] using ha
  have hr := uRows_eq hu (by rw [← hLN]; exact h.hL)
  obtain ⟨g1, g2⟩ := addFftconv_ok C.L (C.colH n) C.colU (C.rdH n) C.rdU C.hL C.hM C.uRows h.hM
    (by rw [hr]; exact h.uM) C.mode (C.S n) (h.scratch n) (fun l hl => rdH_ok h hn hl)
    (fun l hl => rdU_ok h ha hu hl) (C.cf n) (C.c n) (h.cf n) (h.c n)
  refine ⟨?_, fun z => ?_⟩
  · unfold prog
    exact Prog.Safe.bind (Q := fun _ => True) g1 (fun _ _ => rfl)
  · obtain ⟨z', e1, e2⟩ := g2 z
    unfold prog
    rw [Prog.runCol_bind]
    refine ⟨z', ?_, fun i hi => by rw [e2 i hi, hr]⟩
    unfold len
    rw [e1]
    rfl

theorem inside {C : SumCall F} {Y : Buf F} (h : C.Sized Y) (n : Nat) (hn : n < C.hN) :
    n * C.len + C.len ≤ Y.size := by
  have h1 : (n + 1) * C.len ≤ C.hN * C.len := Nat.mul_le_mul_right _ hn
  rw [Nat.add_mul, Nat.one_mul, Nat.mul_comm C.hN] at h1
  rw [h.y]
  exact h1

theorem progOk {C : SumCall F} {Y : Buf F} (h : C.Sized Y) (ha : C.accepted = true)
    (hu : ¬ (C.uM = 1 ∧ 1 < C.uN)) :
    ProgOk C.hN C.len (fun n => n * C.len) .none C.prog Y where
  inside := inside h
  disj := fun i j _ _ hij => SirCall.cols_disj C.len i j hij
  safe := fun n hn => by
    obtain ⟨z', e, _⟩ := (prog_ok h ha hu hn).2 (Y.getCol (n * C.len) C.len)
    rw [e]
    simp
  code := fun n hn r hr => by
    obtain ⟨z', e, _⟩ := (prog_ok h ha hu hn).2 (Y.getCol (n * C.len) C.len)
    rw [e] at hr
    simp only [Outcome.ok.injEq] at hr
    subst hr
    exact .inl rfl

theorem faithful {C : SumCall F} {Y : Buf F} (h : C.Sized Y) (ha : C.accepted = true)
    (hu : ¬ (C.uM = 1 ∧ 1 < C.uN)) : C.drv.Faithful Y := Drv.ofProg_faithful (progOk h ha hu)

theorem defined {C : SumCall F} {Y : Buf F} (h : C.Sized Y) (ha : C.accepted = true)
    (hu : ¬ (C.uM = 1 ∧ 1 < C.uN)) : C.drv.Defined Y :=
  Drv.ofProg_defined (progOk h ha hu) fun n hn =>
    let ⟨z', e, _⟩ := (prog_ok h ha hu hn).2 (Y.getCol (n * C.len) C.len)
    ⟨(z', .none), e⟩

end SumCall

end Dream
